import Verif.Props.SymmetricLaw

/-!
# C68 on a ring: left and right

The mirror image of the model with hops to both sides at equal rates is the model with its processes in the other order. Then C66
gives a symmetry of the model itself: going left has the probability of going right.
-/

namespace KMC

open LatticeModel Interactions MeasureTheory

namespace Sample

/-- The mirror images of the hops. -/
def realHopsBack : List (Proc ℝ) := [realHop 0 (-1), realHop 1 1]

theorem mem_realHopsBack {p : Proc ℝ} : p ∈ realHopsBack ↔ p = realHop 0 (-1) ∨ p = realHop 1 1 := by
  simp [realHopsBack]

theorem realHopsBack_range : maxRange realHopsBack = 1 := rfl

theorem realHopsBack_wellFormed : WellFormed realRingEnv 4 3 realRingStart realHopsBack where
  ranks := by decide
  typed := by decide
  lattice := realRing_wf
  sites := by decide
  config := realRingStart_good
  processes := by
    intro p hp
    rcases mem_realHopsBack.1 hp with rfl | rfl
    · exact realHop_wellFormed (.inr rfl)
    · exact realHop_wellFormed (.inl rfl)

theorem realHopsBack_sited {p : Proc ℝ} (hp : p ∈ realHopsBack) : p.Sited realDist realRing (maxRange realHopsBack) 0 := by
  rw [realHopsBack_range]
  rcases mem_realHopsBack.1 hp with rfl | rfl
  · exact realHop_sited (.inr rfl)
  · exact realHop_sited (.inl rfl)

theorem realHopsBack_positive : PositiveRates realRingEnv realHopsBack where
  constant := by
    intro p hp
    rcases mem_realHopsBack.1 hp with rfl | rfl <;> exact one_pos
  custom := by intro h; cases h

theorem realHopsBack_balanced : ∀ p ∈ realHopsBack, p.Balanced := by
  intro p hp
  rcases mem_realHopsBack.1 hp with rfl | rfl <;> simp [realHop, Proc.Balanced]

theorem realHopsBack_starts : ∃ s, GoodRun realRingEnv 4 3 negLog realRingStart realHopsBack s := by
  obtain ⟨s, hs⟩ := C26_init_ordinary realHopsBack_wellFormed (fun h => absurd h (by decide)) (by decide) realRing rfl realRing_sites.symm
    (fun _ p hp => by
      have hsit := realHopsBack_sited hp
      refine ⟨?_, hsit.sorted, ?_⟩
      · intro b hb
        rw [hsit.basis] at hb
        obtain rfl : 0 = b := by simpa using hb
        decide
      · intro b hb _
        rw [hsit.basis] at hb
        obtain rfl : 0 = b := by simpa using hb
        exact hsit.placed)
  exact ⟨s, realHopsBack_wellFormed, fun h => absurd h (by decide), s, [], hs, rfl⟩

theorem realRing_mirror : realRing.mirror = realRing := by
  simp [PyLattice.mirror, realRing]

theorem realHop_image {number : Nat} {x : ℝ} : (realHop number x).Image Coord.mirror (realHop number (-x)) where
  there := by
    intro e he
    simp only [realHop, List.mem_cons, List.not_mem_nil, or_false] at he
    rcases he with rfl | rfl
    · exact ⟨_, List.mem_cons_self, by simp [Coord.mirror], rfl, rfl⟩
    · exact ⟨_, List.mem_cons_of_mem _ List.mem_cons_self, rfl, rfl, rfl⟩
  back := by
    intro f hf
    simp only [realHop, List.mem_cons, List.not_mem_nil, or_false] at hf
    rcases hf with rfl | rfl
    · exact ⟨_, List.mem_cons_self, by simp [Coord.mirror], rfl, rfl⟩
    · exact ⟨_, List.mem_cons_of_mem _ List.mem_cons_self, rfl, rfl, rfl⟩
  rate := rfl

theorem realHops_images :
    ImageModels realRing realRing realRingEnv realRingEnv realRingStart realRingStart realHops realHopsBack realRing.mirrorSite Coord.mirror := by
  have ho := realRing_onSites
  have h1 := C68_mirror_partial (env := realRingEnv) (env' := realRingEnv) (cfg := realRingStart) (cfg' := realRingStart)
    (procs := realHops) (procs' := realHopsBack) realRing_wf ho (by rw [realRing_mirror]; exact ho)
    (by rw [realHops_range]; exact ⟨.inl ⟨rfl, by decide⟩, .inr rfl, .inr rfl⟩)
    (by rw [realHopsBack_range]; exact ⟨.inl ⟨rfl, by decide⟩, .inr rfl, .inr rfl⟩) rfl
    { length := rfl
      constant := by
        intro p hp
        rcases mem_realHops.1 hp with rfl | rfl <;> rfl
      constant' := by
        intro p hp
        rcases mem_realHopsBack.1 hp with rfl | rfl <;> rfl
      image := by
        intro j p p' hp hp'
        match j, hp, hp' with
        | 0, hp, hp' => cases hp; cases hp'; exact realHop_image
        | 1, hp, hp' =>
          cases hp; cases hp'
          have := realHop_image (number := 1) (x := -1)
          rwa [neg_neg] at this
        | j + 2, hp, hp' => simp [realHops] at hp
      sited := by
        intro j p p' hp hp'
        refine ⟨0, realHops_sited (List.mem_of_getElem? hp), ?_⟩
        rw [realRing_mirror]
        exact realHopsBack_sited (List.mem_of_getElem? hp') }
    (by
      intro p hp e he
      rcases mem_realHops.1 hp with rfl | rfl <;> simp only [realHop, List.mem_cons, List.not_mem_nil, or_false] at he <;>
        rcases he with rfl | rfl <;> norm_num [realRing])
  rwa [realRing_mirror] at h1

theorem ringTypes_mapped {i : Nat} (hi : i < 4) : realRing.Mapped realRing.mirrorSite (ringTypes i) (ringTypes ((4 - i) % 4)) := by
  have hn : realRing.map.nSites = 4 := by rw [realRing_map]; decide
  intro u hu
  rw [hn] at hu
  have e : realRing.mirrorSite u = (4 - u) % 4 := by
    unfold PyLattice.mirrorSite
    have hb : realRing.map.basisSite u = 0 := by rw [realRing_map]; interval_cases u <;> rfl
    have h0 : (realRing.basis.getD (realRing.map.basisSite u) 0).x = 0 := by rw [hb]; rfl
    rw [if_pos h0]
    interval_cases u <;> rfl
  rw [e, ringTypes_get (by omega), ringTypes_get hu]
  congr 2
  refine propext ⟨fun h => ?_, fun h => ?_⟩ <;> omega

theorem realHops_patterns : SamePatterns 1 realHops realHopsBack := by
  refine C66_order ?_ rfl
  exact List.Perm.swap _ _ _

/-- On the ring of four sites with hops to both sides at equal rates, a particle that starts on site 0 is at every time on site 3 with
the probability that it is on site 1. -/
example : ∃ s, GoodRun realRingEnv 4 3 negLog realRingStart realHops s ∧ s.ms.cfg.types = ringTypes 0 ∧
    ∀ t, 0 ≤ t → (chance realRingEnv s (ringTypes 3) t).toReal = (chance realRingEnv s (ringTypes 1) t).toReal := by
  have hone : ∀ els ∈ realRingStart.elements, els.length = 1 := by
    intro els he; simp [realRingStart] at he; aesop
  obtain ⟨hb, hf⟩ := bounded_one (cfg := realRingStart) hone realHops_balanced
  obtain ⟨hb', hf'⟩ := bounded_one (cfg := realRingStart) hone realHopsBack_balanced
  obtain ⟨s, h, hs⟩ := realRing_starts
  obtain ⟨s1, h1⟩ := realHopsBack_starts
  obtain ⟨s', h', hs', -⟩ := goodRun_start h1
  have hs' : s'.ms.cfg.types = ringTypes 0 := hs'
  refine ⟨s, h, hs, fun t h0 => ?_⟩
  have e1 := C68_chance realHops_images realHops_positive hb hf realHopsBack_positive hb' hf' h h' (ringTypes_mapped (i := 0) (by decide))
    (by rw [hs, hs']; exact ringTypes_mapped (i := 0) (by decide)) ((realRing_types _).2 ⟨1, by decide, rfl⟩) rfl
    (ringTypes_mapped (i := 1) (by decide)) h0
  have e2 := C66_law realHops_positive hb hf realHopsBack_positive hb' hf' realHops_patterns one_pos
    realHops_images.constant realHops_images.constant' h h' (by rw [hs, hs']) ((realRing_types _).2 ⟨3, by decide, rfl⟩) h0
  rw [one_mul] at e2
  exact e2.trans e1

end Sample

end KMC
