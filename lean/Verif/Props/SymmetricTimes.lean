import Verif.Props.SymmetricLaw
import Verif.Props.SeveralTimes

/-!
# C62 and C68: the probabilities of images at several times

As in `Props/SymmetricLaw`, for types at several times (C72).
-/

set_option linter.unusedSectionVars false

namespace KMC

open LatticeModel Interactions MeasureTheory

variable {env env' : Env ℝ} {n nT : Nat} {cfg cfg' : Config ℝ} {procs procs' : List (Proc ℝ)} {s s' : Sim ℝ} {P P' : PyLattice ℝ}
variable {τ : Nat → Nat} {g : Coord ℝ → Coord ℝ}

/-- The same times, and types that runs come to with their images. -/
def ImageCourse (env : Env ℝ) (n nT : Nat) (cfg : Config ℝ) (procs : List (Proc ℝ)) (image : List Bucket → List Bucket → Prop)
    (c c' : List (ℝ × List Bucket)) : Prop :=
  List.Forall₂ (fun o o' => 0 ≤ o.1 ∧ o'.1 = o.1 ∧ (∃ b, GoodRun env n nT negLog cfg procs b ∧ b.ms.cfg.types = o.2) ∧
    o'.2.length = n ∧ image o.2 o'.2) c c'

theorem Corresponding.chanceAll_eq (hi : Corresponding env env' n nT cfg cfg' procs procs' τ)
    (hr : PositiveRates env procs) {M : Nat} (hb : Bounded M cfg procs) (hf : FewEnough M procs)
    (hr' : PositiveRates env' procs') {M' : Nat} (hb' : Bounded M' cfg' procs') (hf' : FewEnough M' procs')
    (hall : ∀ b, GoodRun env n nT negLog cfg procs b → ∃ b', GoodRun env' n nT negLog cfg' procs' b' ∧
      CarriedOver n τ b.ms.cfg.types b'.ms.cfg.types) {c c' : List (ℝ × List Bucket)}
    (hc : ImageCourse env n nT cfg procs (CarriedOver n τ) c c') (h : GoodRun env n nT negLog cfg procs s)
    (h' : GoodRun env' n nT negLog cfg' procs' s') (hm : CarriedOver n τ s.ms.cfg.types s'.ms.cfg.types) :
    (chanceAll env' s' (sums 0 c')).toReal = (chanceAll env s (sums 0 c)).toReal := by
  have hreach : ∀ o o' : ℝ × List Bucket, (0 ≤ o.1 ∧ o'.1 = o.1 ∧ (∃ b, GoodRun env n nT negLog cfg procs b ∧ b.ms.cfg.types = o.2) ∧
      o'.2.length = n ∧ CarriedOver n τ o.2 o'.2) → ∃ b', GoodRun env' n nT negLog cfg' procs' b' ∧ b'.ms.cfg.types = o'.2 := by
    rintro o o' ⟨-, -, ⟨b, g1, g2⟩, g3, g4⟩
    obtain ⟨b', k1, k2⟩ := hall b g1
    refine ⟨b', k1, carriedOver_unique hi.lt hi.inj k1.good.shape.types g3 k2 ?_⟩
    rw [g2]
    exact g4
  unfold ImageCourse at hc
  induction hc generalizing s s' with
  | nil =>
    have hv : ∀ (env : Env ℝ) (s : Sim ℝ), chanceAll env s (sums 0 []) = 1 := by
      intro env s
      have hv : ∀ N, volume {w : Fin N → ℝ × ℝ × ℝ | InCube w ∧ AtTimes env N s (sums 0 []) w} = 1 := by
        intro N
        rw [← Chain.volume_unitCube N]
        congr 1
        ext w
        exact ⟨fun h => h.1, fun h => ⟨h, atTimes_nil _ _ _ _⟩⟩
      unfold chanceAll
      simp only [hv, ciSup_const]
    rw [hv, hv]
  | @cons o o' c c' ho hc ih =>
    obtain ⟨t, y⟩ := o
    obtain ⟨t', y'⟩ := o'
    obtain ⟨b', g1, g2⟩ := hreach _ _ ho
    obtain ⟨h0, rfl, ⟨b, k1, k2⟩, k3, k4⟩ := ho
    dsimp only at h0 g2 k2 k3 k4
    have hl : ∀ o ∈ c, 0 ≤ o.1 ∧ ∃ a, GoodRun env n nT negLog cfg procs a ∧ a.ms.cfg.types = o.2 := by
      intro o ho
      obtain ⟨i, hi⟩ := List.mem_iff_getElem?.1 ho
      obtain ⟨hlt, rfl⟩ := List.getElem?_eq_some_iff.1 hi
      have := (List.forall₂_iff_get.1 hc).2 i hlt (by rw [← hc.length_eq]; exact hlt)
      exact ⟨this.1, this.2.2.1⟩
    have hl' : ∀ o ∈ c', 0 ≤ o.1 ∧ ∃ a, GoodRun env' n nT negLog cfg' procs' a ∧ a.ms.cfg.types = o.2 := by
      intro o ho
      obtain ⟨i, hi⟩ := List.mem_iff_getElem?.1 ho
      obtain ⟨hlt, rfl⟩ := List.getElem?_eq_some_iff.1 hi
      have := (List.forall₂_iff_get.1 hc).2 i (by rw [hc.length_eq]; exact hlt) hlt
      refine ⟨?_, hreach _ _ this⟩
      have e := this.2.1
      simp only [List.get_eq_getElem] at e
      rw [e]
      exact this.1
    have e1 := C72_constant hr hb hf hi.constant h k1 h0 hl
    have e2 := C72_constant hr' hb' hf' hi.constant' h' g1 h0 hl'
    rw [k2] at e1
    rw [g2] at e2
    have hchance := hi.chance_eq hr hb hf hr' hb' hf' h h' hall hm ⟨b, k1, k2⟩ k3 k4 h0
    rw [e1, e2, hchance, ih k1 g1 (by rw [k2, g2]; exact k4)]

/-- **C68** The image of a model has the images of given types at several times with the probability that the model has these
types. -/
theorem C68_times (hi : ImageModels P P' env env' cfg cfg' procs procs' τ g)
    (hr : PositiveRates env procs) {M : Nat} (hb : Bounded M cfg procs) (hf : FewEnough M procs)
    (hr' : PositiveRates env' procs') {M' : Nat} (hb' : Bounded M' cfg' procs') (hf' : FewEnough M' procs')
    (h : GoodRun env n nT negLog cfg procs s) (h' : GoodRun env' n nT negLog cfg' procs' s')
    (hm0 : P.Mapped τ cfg.types cfg'.types) (hm : P.Mapped τ s.ms.cfg.types s'.ms.cfg.types) {c c' : List (ℝ × List Bucket)}
    (hc : ImageCourse env n nT cfg procs (P.Mapped τ) c c') :
    (chanceAll env' s' (sums 0 c')).toReal = (chanceAll env s (sums 0 c)).toReal := by
  obtain ⟨hP, hn⟩ := hi.on.wf h
  have hcor := hi.corresponding (nT := nT) hn
  refine hcor.chanceAll_eq hr hb hf hr' hb' hf' (fun b hb1 => hcor.types_reached hr hb hf hr' hb' hf' h' (fun u hu => hm0 u (by omega)) hb1)
    ?_ h h' (fun u hu => hm u (by omega))
  exact List.Forall₂.imp (fun o o' ho => ⟨ho.1, ho.2.1, ho.2.2.1, ho.2.2.2.1, fun u hu => ho.2.2.2.2 u (by omega)⟩) hc

/-- **C62** A translated model has the translates of given types at several times with the probability that the model has these
types. -/
theorem C62_times {i j k : Nat} (ht : TranslatedModels P env cfg cfg' procs i j k) (hcon : ∀ p ∈ procs, p.custom = false)
    (hr : PositiveRates env procs) {M : Nat} (hb : Bounded M cfg procs) {M' : Nat} (hb' : Bounded M' cfg' procs)
    (hf : FewEnough M procs) (hf' : FewEnough M' procs)
    (h : GoodRun env n nT negLog cfg procs s) (h' : GoodRun env n nT negLog cfg' procs s')
    (hm0 : P.Moved i j k cfg.types cfg'.types) (hm : P.Moved i j k s.ms.cfg.types s'.ms.cfg.types) {c c' : List (ℝ × List Bucket)}
    (hc : ImageCourse env n nT cfg procs (P.Moved i j k) c c') :
    (chanceAll env s' (sums 0 c')).toReal = (chanceAll env s (sums 0 c)).toReal := by
  obtain ⟨hP, hn⟩ := ht.wf h
  have hcor := ht.corresponding (nT := nT) hP hn hcon
  refine hcor.chanceAll_eq hr hb hf hr hb' hf' (fun b hb1 => hcor.types_reached hr hb hf hr hb' hf' h' (fun u hu => hm0 u (by omega)) hb1)
    ?_ h h' (fun u hu => hm u (by omega))
  exact List.Forall₂.imp (fun o o' ho => ⟨ho.1, ho.2.1, ho.2.2.1, ho.2.2.2.1, fun u hu => ho.2.2.2.2 u (by omega)⟩) hc

/-- **C62** The same within one model, when its runs come to the translates of all states. -/
theorem C62_homogeneous_times {i j k : Nat} (ht : TranslatedModels P env cfg cfg procs i j k) (hcon : ∀ p ∈ procs, p.custom = false)
    (hr : PositiveRates env procs) {M : Nat} (hb : Bounded M cfg procs) (hf : FewEnough M procs)
    (h : GoodRun env n nT negLog cfg procs s) (h' : GoodRun env n nT negLog cfg procs s')
    (hall : ∀ b, GoodRun env n nT negLog cfg procs b → ∃ b', GoodRun env n nT negLog cfg procs b' ∧
      P.Moved i j k b.ms.cfg.types b'.ms.cfg.types)
    (hm : P.Moved i j k s.ms.cfg.types s'.ms.cfg.types) {c c' : List (ℝ × List Bucket)}
    (hc : ImageCourse env n nT cfg procs (P.Moved i j k) c c') :
    (chanceAll env s' (sums 0 c')).toReal = (chanceAll env s (sums 0 c)).toReal := by
  obtain ⟨hP, hn⟩ := ht.wf h
  refine (ht.corresponding (nT := nT) hP hn hcon).chanceAll_eq hr hb hf hr hb hf (fun b hb1 => ?_) ?_ h h'
    (fun u hu => hm u (by omega))
  · obtain ⟨b', g1, g2⟩ := hall b hb1
    exact ⟨b', g1, fun u hu => g2 u (by omega)⟩
  · exact List.Forall₂.imp (fun o o' ho => ⟨ho.1, ho.2.1, ho.2.2.1, ho.2.2.2.1, fun u hu => ho.2.2.2.2 u (by omega)⟩) hc

/-- A particle on a ring of four sites: from site 1 to site 2 and back is as likely, at any two times, as from site 0 to site 1 and
back. -/
example : ∃ s s', GoodRun Sample.realRingEnv 4 3 negLog Sample.realRingStart Sample.realHops s ∧
    GoodRun Sample.realRingEnv 4 3 negLog Sample.realRingStart Sample.realHops s' ∧ s.ms.cfg.types = Sample.ringTypes 0 ∧
    s'.ms.cfg.types = Sample.ringTypes 1 ∧ ∀ t u, 0 ≤ t → 0 ≤ u →
      (chanceAll Sample.realRingEnv s' [(t, Sample.ringTypes 2), (t + u, Sample.ringTypes 1)]).toReal =
      (chanceAll Sample.realRingEnv s [(t, Sample.ringTypes 1), (t + u, Sample.ringTypes 0)]).toReal := by
  obtain ⟨hb, hf⟩ := bounded_one (cfg := Sample.realRingStart) (by intro els he; simp [Sample.realRingStart] at he; aesop) Sample.realHops_balanced
  obtain ⟨s, h, hs⟩ := (Sample.realRing_types _).2 ⟨0, by decide, rfl⟩
  obtain ⟨s', h', hs'⟩ := (Sample.realRing_types _).2 ⟨1, by decide, rfl⟩
  have ho := Sample.realRing_onSites
  refine ⟨s, s', h, h', hs, hs', fun t u h0 h1 => ?_⟩
  have := C62_homogeneous_times (i := 1) (j := 0) (k := 0) (s := s) (s' := s')
    ⟨ho.lattice, ho.coords, ho.coords, ho.basis, ho.distinct, .inr ⟨rfl, by rw [Sample.realHops_range]; decide⟩, .inl rfl, .inl rfl⟩
    (by
      intro p hp
      rcases Sample.mem_realHops.1 hp with rfl | rfl <;> rfl) Sample.realHops_positive hb hf h h'
    (by
      intro b hb1
      obtain ⟨i, hi, e⟩ := (Sample.realRing_types _).1 ⟨b, hb1, rfl⟩
      obtain ⟨b', g1, g2⟩ := (Sample.realRing_types _).2 ⟨(i + 1) % 4, by omega, rfl⟩
      exact ⟨b', g1, by rw [e, g2]; exact ringTypes_moved hi⟩)
    (by
      rw [hs, hs']
      exact ringTypes_moved (by decide))
    (c := [(t, Sample.ringTypes 1), (u, Sample.ringTypes 0)]) (c' := [(t, Sample.ringTypes 2), (u, Sample.ringTypes 1)])
    (.cons ⟨h0, rfl, (Sample.realRing_types _).2 ⟨1, by decide, rfl⟩, rfl, ringTypes_moved (by decide)⟩
      (.cons ⟨h1, rfl, (Sample.realRing_types _).2 ⟨0, by decide, rfl⟩, rfl, ringTypes_moved (by decide)⟩ .nil))
  simpa only [sums, zero_add] using this

end KMC
