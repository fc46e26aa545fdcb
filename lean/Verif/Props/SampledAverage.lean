import Verif.Props.Average
import Verif.Props.SeveralTimes
import Verif.Lemmas.WeakLaw

/-!
# C73: the average over the samples of one run

A run looked at in equal steps of time: the average of a quantity of the types over the samples is close to its average with the
stationary weights, except with a probability that goes to zero as one over the number of samples. C65 is about averages over many
runs; here one run is enough.
-/

set_option linter.unusedSectionVars false

namespace KMC

open LatticeModel Interactions MeasureTheory Classical Filter

/-- These types at the times `τ`, `2 τ`, `3 τ` and so on. -/
noncomputable def samples (τ : ℝ) (l : List (List Bucket)) : List (ℝ × List Bucket) := sums 0 (l.map fun y => (τ, y))

/-- With these random numbers at most `N` events decide the types at the times `τ`, `2 τ`, …, `k τ`, and the average of `g` over
these `k` samples is at least `ε` away from `μ`. -/
def SampledFar (env : Env ℝ) (s : Sim ℝ) (τ : ℝ) (k : ℕ) (g : List Bucket → ℝ) (μ ε : ℝ) (N : ℕ) (w : Fin N → ℝ × ℝ × ℝ) : Prop :=
  ∃ l : List (List Bucket), l.length = k ∧ AtTimes env N s (samples τ l) w ∧ ε ≤ |(l.map g).sum / k - μ|

/-- The probability that the average of `g` over `k` samples is at least `ε` away from `μ`. -/
noncomputable def farChance (env : Env ℝ) (s : Sim ℝ) (τ : ℝ) (k : ℕ) (g : List Bucket → ℝ) (μ ε : ℝ) : ENNReal :=
  ⨆ N, volume {w : Fin N → ℝ × ℝ × ℝ | InCube w ∧ SampledFar env s τ k g μ ε N w}

/-- With these random numbers at most `N` events decide the types at the times `τ`, `2 τ`, …, `k τ`, and the average of `g` over
these `k` samples is less than `ε` away from `μ`. -/
def SampledNear (env : Env ℝ) (s : Sim ℝ) (τ : ℝ) (k : ℕ) (g : List Bucket → ℝ) (μ ε : ℝ) (N : ℕ) (w : Fin N → ℝ × ℝ × ℝ) : Prop :=
  ∃ l : List (List Bucket), l.length = k ∧ AtTimes env N s (samples τ l) w ∧ |(l.map g).sum / k - μ| < ε

/-- The probability that the average of `g` over `k` samples is less than `ε` away from `μ`. -/
noncomputable def nearChance (env : Env ℝ) (s : Sim ℝ) (τ : ℝ) (k : ℕ) (g : List Bucket → ℝ) (μ ε : ℝ) : ENNReal :=
  ⨆ N, volume {w : Fin N → ℝ × ℝ × ℝ | InCube w ∧ SampledNear env s τ k g μ ε N w}

variable {env : Env ℝ} {n nT : Nat} {cfg : Config ℝ} {procs : List (Proc ℝ)} {s s' : Sim ℝ}
variable {T : Finset (List Bucket)} {W : List Bucket → List Bucket → ℝ}

/-- Runs stay in a closed family. -/
theorem atTimes_mem (hF : ClosedFamily env n nT cfg procs T W) {N : ℕ} (h : GoodRun env n nT negLog cfg procs s)
    (ht : s.ms.cfg.types ∈ T) {L : List (ℝ × List Bucket)} {w : Fin N → ℝ × ℝ × ℝ} (hw : InCube w) (hL : AtTimes env N s L w) :
    ∀ o ∈ L, o.2 ∈ T := by
  induction N generalizing s L with
  | zero => rw [show L = [] from hL]; exact fun o ho => absurd ho List.not_mem_nil
  | succ N ih =>
    intro o ho
    rcases hL with rfl | ⟨-, hL⟩ | ⟨-, s', hs', h1, h2⟩
    · exact absurd ho List.not_mem_nil
    · rw [← hL o ho]; exact ht
    · by_cases hlt : o.1 < s'.time - s.time
      · rw [← h1 o ho hlt]; exact ht
      · obtain ⟨j, site, hl⟩ := step_leads hs'
        exact ih (h.step hs') (hF.closed s h ht j site _ hl) (fun i => hw i.succ) h2 (o.1 - (s'.time - s.time), o.2)
          (List.mem_map.2 ⟨o, List.mem_filter.2 ⟨ho, decide_eq_true (not_lt.1 hlt)⟩, rfl⟩)

/-- The random numbers determine the types. -/
theorem atTimes_unique {N : ℕ} {L L' : List (ℝ × List Bucket)} {w : Fin N → ℝ × ℝ × ℝ} (hL : AtTimes env N s L w)
    (hL' : AtTimes env N s L' w) {t : ℝ} {y y' : List Bucket} (h : (t, y) ∈ L) (h' : (t, y') ∈ L') : y = y' := by
  induction N generalizing s L L' t with
  | zero => rw [show L = [] from hL] at h; exact absurd h List.not_mem_nil
  | succ N ih =>
    rcases hL with rfl | ⟨ha, hL⟩ | ⟨ha, a, ha1, ha2, ha3⟩
    · exact absurd h List.not_mem_nil
    · rcases hL' with rfl | ⟨-, hL'⟩ | ⟨hb, -⟩
      · exact absurd h' List.not_mem_nil
      · exact (hL _ h).symm.trans (hL' _ h')
      · exact absurd ha hb
    · rcases hL' with rfl | ⟨hb, -⟩ | ⟨-, b, hb1, hb2, hb3⟩
      · exact absurd h' List.not_mem_nil
      · exact absurd hb ha
      · rw [ha1] at hb1
        cases hb1
        by_cases hlt : t < a.time - s.time
        · exact (ha2 _ h hlt).symm.trans (hb2 _ h' hlt)
        · exact ih ha3 hb3 (List.mem_map.2 ⟨(t, y), List.mem_filter.2 ⟨h, decide_eq_true (not_lt.1 hlt)⟩, rfl⟩)
            (List.mem_map.2 ⟨(t, y'), List.mem_filter.2 ⟨h', decide_eq_true (not_lt.1 hlt)⟩, rfl⟩)

theorem samples_unique {N : ℕ} {τ : ℝ} {l l' : List (List Bucket)} (hlen : l.length = l'.length) {w : Fin N → ℝ × ℝ × ℝ}
    (hl : AtTimes env N s (samples τ l) w) (hl' : AtTimes env N s (samples τ l') w) : l = l' := by
  have key : ∀ (l l' : List (List Bucket)) (c : ℝ), l.length = l'.length →
      (∀ t y y', (t, y) ∈ sums c (l.map fun y => (τ, y)) → (t, y') ∈ sums c (l'.map fun y => (τ, y)) → y = y') → l = l' := by
    intro l
    induction l with
    | nil => exact fun l' _ h _ => (List.length_eq_zero_iff.1 h.symm).symm
    | cons y l ih =>
      intro l' c hlen h
      cases l' with
      | nil => simp at hlen
      | cons y' l' =>
        simp only [List.map_cons, sums] at h
        rw [h _ y y' List.mem_cons_self List.mem_cons_self, ih l' (c + τ) (by simpa using hlen) fun t z z' h1 h2 =>
          h t z z' (List.mem_cons_of_mem _ h1) (List.mem_cons_of_mem _ h2)]
  exact key l l' 0 hlen fun t y y' h h' => atTimes_unique hl hl' h h'

/-- Types at several times are an event, and more likely to be decided with more random numbers. -/
theorem atTimes_event (hF : ClosedFamily env n nT cfg procs T W) (hr : PositiveRates env procs) {M : Nat}
    (hb : Bounded M cfg procs) (hf : FewEnough M procs) (h : GoodRun env n nT negLog cfg procs s) (ht : s.ms.cfg.types ∈ T)
    {l : List (ℝ × List Bucket)} (hl : ∀ o ∈ l, 0 ≤ o.1 ∧ o.2 ∈ T) (hne : l ≠ []) :
    (∀ N, MeasurableSet {w : Fin N → ℝ × ℝ × ℝ | InCube w ∧ AtTimes env N s (sums 0 l) w}) ∧
      Monotone fun N => volume {w : Fin N → ℝ × ℝ × ℝ | InCube w ∧ AtTimes env N s (sums 0 l) w} := by
  cases l with
  | nil => exact absurd rfl hne
  | cons o l =>
    obtain ⟨t, y⟩ := o
    obtain ⟨L, rfl⟩ := exists_bare (T := T) (l := l) fun o ho => (hl o (List.mem_cons_of_mem _ ho)).2
    obtain ⟨h0, hy⟩ : 0 ≤ t ∧ y ∈ T := hl (t, y) List.mem_cons_self
    have hL : ∀ o ∈ L, 0 ≤ o.1 := fun o ho =>
      (hl (o.1, o.2.1) (List.mem_cons_of_mem _ (List.mem_map_of_mem (f := fun o : ℝ × {x // x ∈ T} => (o.1, o.2.1)) ho))).1
    let a : Member env n nT cfg procs T := ⟨s, h, ht⟩
    obtain ⟨σ, hσ, ha⟩ := exists_section hF a
    have hW : ∀ i k : {x // x ∈ T}, 0 ≤ W i.1 k.1 := by
      intro i k
      obtain ⟨s, hs, ht⟩ := hF.reached i.1 i.2
      rw [← ht, ← hF.rates s hs (by rw [ht]; exact i.2) k.1 k.2]
      exact flow_nonneg hs hr _
    have hset : ∀ N, {w : Fin N → ℝ × ℝ × ℝ | InCube w ∧ AtTimes env N s (sums 0 ((t, y) :: bare L)) w} =
        (jumps hF hr hb hf).Visits typesOf t ⟨y, hy⟩ L N a := by
      intro N
      ext w
      rw [jumps_visits hF hr hb hf N a h0 ⟨y, hy⟩ hL w, ← sums_bare]
      rfl
    simp only [hset]
    exact ⟨fun N => (Chain.Jumps.proper_visits h0 ⟨y, hy⟩ hL).measurable N a,
      (Chain.Jumps.volume_visits (jumps_classes hF hr hb hf) hσ hW h0 ⟨y, hy⟩ hL).1 a⟩

theorem samples_snd (τ : ℝ) (l : List (List Bucket)) : (samples τ l).map Prod.snd = l := by
  unfold samples
  generalize (0 : ℝ) = c
  induction l generalizing c with
  | nil => rfl
  | cons y l ih => simp only [List.map_cons, sums, ih]

theorem course_weight (st : List Bucket → Sim ℝ) (τ : ℝ) (x : List Bucket) (l : List (List Bucket)) :
    courseChance env st x (l.map fun y => (τ, y)) = Chain.weight (fun x y => (chance env (st x) y τ).toReal) x l := by
  induction l generalizing x with
  | nil => rfl
  | cons y l ih =>
    show _ * courseChance env st y (l.map fun y => (τ, y)) = _
    rw [ih]
    rfl

theorem chanceAll_le (L : List (ℝ × List Bucket)) : chanceAll env s L ≤ 1 := by
  refine iSup_le fun N => ?_
  rw [← Chain.volume_unitCube N]
  exact measure_mono fun w h => h.1

/-- Some types are found at the samples with probability one. -/
theorem sampled_total (hF : ClosedFamily env n nT cfg procs T W) (hr : PositiveRates env procs) {M : Nat}
    (hb : Bounded M cfg procs) (hf : FewEnough M procs) (h : GoodRun env n nT negLog cfg procs s) (ht : s.ms.cfg.types ∈ T)
    {τ : ℝ} (hτ : 0 < τ) {k : ℕ} (hk : 0 < k) :
    ⨆ N, volume {w : Fin N → ℝ × ℝ × ℝ | InCube w ∧ ∃ l : List (List Bucket), l.length = k ∧ AtTimes env N s (samples τ l) w} = 1 := by
  have hex : ∀ x : List Bucket, ∃ a, x ∈ T → GoodRun env n nT negLog cfg procs a ∧ a.ms.cfg.types = x := by
    intro x
    by_cases hx : x ∈ T
    · obtain ⟨a, ha⟩ := hF.reached x hx
      exact ⟨a, fun _ => ha⟩
    · exact ⟨s, fun h => absurd h hx⟩
  choose st hst using hex
  have hst1 := fun x hx => (hst x hx).1
  have hst2 := fun x hx => (hst x hx).2
  have hmem : ∀ x ∈ T, (st x).ms.cfg.types ∈ T := fun x hx => by rw [hst2 x hx]; exact hx
  have hp1 : ∀ x ∈ T, ∑ y ∈ T, (chance env (st x) y τ).toReal = 1 := fun x hx =>
    C64_total hF hr hb hf (hst1 x hx) (hmem x hx) hτ.le
  have hok : ∀ l ∈ Chain.words T k, (∀ o ∈ l.map fun y => (τ, y), 0 ≤ o.1 ∧ o.2 ∈ T) ∧ (l.map fun y => (τ, y)) ≠ [] := by
    intro l hl
    obtain ⟨g1, g2⟩ := Chain.mem_words.1 hl
    refine ⟨?_, ?_⟩
    · rw [List.forall_mem_map]
      exact fun y hy => ⟨hτ.le, g2 y hy⟩
    · rw [ne_eq, List.map_eq_nil_iff]
      rintro rfl
      simp only [List.length_nil] at g1
      omega
  have hev := fun l hl => atTimes_event hF hr hb hf h ht (hok l hl).1 (hok l hl).2
  have hunion : ∀ N, volume {w : Fin N → ℝ × ℝ × ℝ | InCube w ∧ ∃ l : List (List Bucket), l.length = k ∧
      AtTimes env N s (samples τ l) w} =
      ∑ l ∈ Chain.words T k, volume {w : Fin N → ℝ × ℝ × ℝ | InCube w ∧ AtTimes env N s (samples τ l) w} := by
    intro N
    rw [← measure_biUnion_finset]
    · congr 1
      ext v
      simp only [Set.mem_ofPred_eq, Set.mem_iUnion, exists_prop]
      constructor
      · rintro ⟨hv, l, h1, h2⟩
        refine ⟨l, Chain.mem_words.2 ⟨h1, fun y hy => ?_⟩, hv, h2⟩
        rw [← samples_snd τ l] at hy
        obtain ⟨o, ho, rfl⟩ := List.mem_map.1 hy
        exact atTimes_mem hF h ht hv h2 o ho
      · rintro ⟨l, h1, hv, h2⟩
        exact ⟨hv, l, (Chain.mem_words.1 h1).1, h2⟩
    · intro l hl l' hl' hne
      refine Set.disjoint_left.2 fun v hv hv' => hne ?_
      exact samples_unique ((Chain.mem_words.1 (Finset.mem_coe.1 hl)).1.trans (Chain.mem_words.1 (Finset.mem_coe.1 hl')).1.symm) hv.2 hv'.2
    · exact fun l hl => (hev l hl).1 N
  simp only [hunion]
  have hmono : ∀ l ∈ Chain.words T k, Monotone fun N => volume {w : Fin N → ℝ × ℝ × ℝ | InCube w ∧ AtTimes env N s (samples τ l) w} :=
    fun l hl => (hev l hl).2
  have hsup := (ENNReal.finsetSum_iSup_of_monotone (s := (Chain.words T k).attach)
    (f := fun l N => volume {w : Fin N → ℝ × ℝ × ℝ | InCube w ∧ AtTimes env N s (samples τ l.1) w}) fun l => hmono l.1 l.2).symm
  have hatt : ∀ N, ∑ l ∈ Chain.words T k, volume {w : Fin N → ℝ × ℝ × ℝ | InCube w ∧ AtTimes env N s (samples τ l) w} =
      ∑ l ∈ (Chain.words T k).attach, volume {w : Fin N → ℝ × ℝ × ℝ | InCube w ∧ AtTimes env N s (samples τ l.1) w} := fun N =>
    (Finset.sum_attach _ fun l => volume {w : Fin N → ℝ × ℝ × ℝ | InCube w ∧ AtTimes env N s (samples τ l) w}).symm
  simp only [hatt]
  rw [hsup]
  have hval : ∀ l ∈ (Chain.words T k).attach, (⨆ N, volume {w : Fin N → ℝ × ℝ × ℝ | InCube w ∧ AtTimes env N s (samples τ l.1) w}) =
      ENNReal.ofReal (Chain.weight (fun x y => (chance env (st x) y τ).toReal) s.ms.cfg.types l.1) := by
    intro l _
    have := C72_times hF hr hb hf hst1 hst2 h ht (hok l.1 l.2).1
    rw [course_weight] at this
    rw [← this, ENNReal.ofReal_toReal (ne_top_of_le_ne_top ENNReal.one_ne_top (chanceAll_le _))]
    rfl
  rw [Finset.sum_congr rfl hval, ← ENNReal.ofReal_sum_of_nonneg fun l _ => Chain.weight_nonneg
    (fun _ _ _ _ => ENNReal.toReal_nonneg) ht (Chain.mem_words.1 l.2).2,
    Finset.sum_attach (Chain.words T k) (fun l => Chain.weight (fun x y => (chance env (st x) y τ).toReal) s.ms.cfg.types l),
    Chain.sum_weight hp1 k ht, ENNReal.ofReal_one]

section
variable (hF : ClosedFamily env n nT cfg procs T W) (hr : PositiveRates env procs) {M : Nat}
  (hb : Bounded M cfg procs) (hf : FewEnough M procs)
  (hirr : ∀ x ∈ T, ∀ y ∈ T, Leads T W x y) {w : List Bucket → ℝ} (hw0 : ∀ x ∈ T, 0 ≤ w x) (hw1 : ∑ x ∈ T, w x = 1)
  (hw : ∀ y ∈ T, ∑ x ∈ T, w x * W x y = w y * ∑ x ∈ T, W y x)
include hF hr hb hf hirr hw0 hw1 hw

/-- **C73** The average of a quantity over `k` samples of a run is at least `ε` away from its average with the stationary weights
with a probability of at most a constant over `k ε²`. The constant depends neither on the start nor on `k` and `ε`. -/
theorem C73_sampled (g : List Bucket → ℝ) {τ : ℝ} (hτ : 0 < τ) : ∃ C : ℝ, ∀ s, GoodRun env n nT negLog cfg procs s →
    s.ms.cfg.types ∈ T → ∀ k : ℕ, 0 < k → ∀ ε : ℝ, 0 < ε →
      farChance env s τ k g (∑ y ∈ T, g y * w y) ε ≤ ENNReal.ofReal (C / (k * ε ^ 2)) := by
  obtain ⟨δ, d1, d2, hd⟩ := C65_rate hF hr hb hf hirr hw0 hw1 hw
  obtain ⟨B, hB⟩ := Chain.geometric_bound d1 d2 hτ
  set μ := ∑ y ∈ T, g y * w y with hμ
  let f : List Bucket → ℝ := fun y => g y - μ
  let F : ℝ := ∑ y ∈ T, |f y|
  have hne : T.Nonempty := by
    rw [Finset.nonempty_iff_ne_empty]
    rintro rfl
    simp at hw1
  obtain ⟨x0, hx0⟩ := hne
  obtain ⟨a0, -⟩ := hF.reached x0 hx0
  have hex : ∀ x : List Bucket, ∃ a, x ∈ T → GoodRun env n nT negLog cfg procs a ∧ a.ms.cfg.types = x := by
    intro x
    by_cases hx : x ∈ T
    · obtain ⟨a, ha⟩ := hF.reached x hx
      exact ⟨a, fun _ => ha⟩
    · exact ⟨a0, fun h => absurd h hx⟩
  choose st hst using hex
  have hst1 := fun x hx => (hst x hx).1
  have hst2 := fun x hx => (hst x hx).2
  have hmem : ∀ x ∈ T, (st x).ms.cfg.types ∈ T := fun x hx => by rw [hst2 x hx]; exact hx
  let p : List Bucket → List Bucket → ℝ := fun x y => (chance env (st x) y τ).toReal
  let Q : ℕ → List Bucket → ℝ := fun m x => ∑ y ∈ T, (chance env (st x) y (m * τ)).toReal * f y
  have hp : ∀ x ∈ T, ∀ y ∈ T, 0 ≤ p x y := fun _ _ _ _ => ENNReal.toReal_nonneg
  have hp1 : ∀ x ∈ T, ∑ y ∈ T, p x y = 1 := fun x hx => C64_total hF hr hb hf (hst1 x hx) (hmem x hx) hτ.le
  have hfF : ∀ x ∈ T, |f x| ≤ F := fun x hx => Finset.single_le_sum (f := fun y => |f y|) (fun _ _ => abs_nonneg _) hx
  have hF0 : 0 ≤ F := Finset.sum_nonneg fun _ _ => abs_nonneg _
  have hQ0 : ∀ x ∈ T, Q 0 x = f x := by
    intro x hx
    show ∑ y ∈ T, (chance env (st x) y ((0 : ℕ) * τ)).toReal * f y = f x
    rw [Nat.cast_zero, zero_mul, Finset.sum_eq_single_of_mem x hx]
    · rw [C64_start hF hr hb hf (hst1 x hx) (hmem x hx) hx, if_pos (hst2 x hx), one_mul]
    · intro y hy hyx
      rw [C64_start hF hr hb hf (hst1 x hx) (hmem x hx) hy, if_neg (by rw [hst2 x hx]; exact fun h => hyx h.symm), zero_mul]
  have hQ1 : ∀ m, ∀ x ∈ T, Q (m + 1) x = ∑ y ∈ T, p x y * Q m y := by
    intro m x hx
    have e : ((m + 1 : ℕ) : ℝ) * τ = τ + m * τ := by push_cast; ring
    show ∑ y ∈ T, (chance env (st x) y (((m + 1 : ℕ) : ℝ) * τ)).toReal * f y =
      ∑ y ∈ T, p x y * ∑ z ∈ T, (chance env (st y) z (m * τ)).toReal * f z
    rw [e]
    simp only [Finset.mul_sum]
    rw [Finset.sum_comm]
    refine Finset.sum_congr rfl fun z hz => ?_
    rw [C65_semigroup hF hr hb hf (hst1 x hx) (hmem x hx) hst1 hst2 hz hτ.le (by positivity), Finset.sum_mul]
    exact Finset.sum_congr rfl fun y _ => mul_assoc _ _ _
  have hmean : ∑ y ∈ T, w y * f y = 0 := by
    have : ∀ y ∈ T, w y * f y = g y * w y - μ * w y := fun y _ => by dsimp only [f]; ring
    rw [Finset.sum_congr rfl this, Finset.sum_sub_distrib, ← Finset.mul_sum, hw1, mul_one, hμ, sub_self]
  have hQ2 : ∀ m : ℕ, ∀ x ∈ T, |Q (m + 1) x| ≤ (1 - δ) ^ ⌊((m : ℝ) + 1) * τ⌋₊ * F := by
    intro m x hx
    have h0 : (0 : ℝ) ≤ ((m : ℝ) + 1) * τ := by positivity
    have e : Q (m + 1) x = ∑ y ∈ T, ((chance env (st x) y (((m : ℝ) + 1) * τ)).toReal - w y) * f y := by
      simp only [sub_mul, Finset.sum_sub_distrib, hmean, sub_zero]
      show ∑ y ∈ T, (chance env (st x) y (((m + 1 : ℕ) : ℝ) * τ)).toReal * f y = _
      push_cast
      rfl
    rw [e, Finset.mul_sum]
    refine (Finset.abs_sum_le_sum_abs _ _).trans (Finset.sum_le_sum fun y hy => ?_)
    rw [abs_mul]
    refine mul_le_mul_of_nonneg_right ?_ (abs_nonneg _)
    have := hd (st x) (hst1 x hx) (hmem x hx) y hy ⌊((m : ℝ) + 1) * τ⌋₊ (((m : ℝ) + 1) * τ - ⌊((m : ℝ) + 1) * τ⌋₊)
      (sub_nonneg.2 (Nat.floor_le h0))
    rwa [add_sub_cancel] at this
  have hQB : ∀ k, ∀ x ∈ T, |∑ m ∈ Finset.range k, Q (m + 1) x| ≤ B * F := by
    intro k x hx
    refine (Finset.abs_sum_le_sum_abs _ _).trans ((Finset.sum_le_sum fun m _ => hQ2 m x hx).trans ?_)
    rw [← Finset.sum_mul]
    exact mul_le_mul_of_nonneg_right (hB k) hF0
  refine ⟨F ^ 2 + 2 * F * (B * F), fun s h ht k hk ε he => ?_⟩
  have hkr : (0 : ℝ) < k := by exact_mod_cast hk
  let D : List (List Bucket) → Prop := fun l => l.length = k ∧ ε ≤ |(l.map g).sum / k - μ|
  have hD : ∀ l, D l → k * ε ≤ |(l.map f).sum| := by
    rintro l ⟨hl, hfar⟩
    have e : (l.map f).sum = k * ((l.map g).sum / k - μ) := by
      have : (l.map f).sum = (l.map g).sum - l.length * μ := by
        clear hl hfar
        induction l with
        | nil => simp
        | cons y l ih =>
          simp only [List.map_cons, List.sum_cons, ih, List.length_cons, f]
          push_cast
          ring
      rw [this, hl]
      field_simp
    rw [e, abs_mul, abs_of_pos hkr]
    exact mul_le_mul_of_nonneg_left hfar hkr.le
  have hbound := Chain.far_average hp hp1 hfF hQ0 hQ1 hQB hk ht he D hD
  refine iSup_le fun N => ?_
  have hsub : {v : Fin N → ℝ × ℝ × ℝ | InCube v ∧ SampledFar env s τ k g μ ε N v} ⊆
      ⋃ l ∈ (Chain.words T k).filter D, {v | InCube v ∧ AtTimes env N s (samples τ l) v} := by
    rintro v ⟨hv, l, h1, h2, h3⟩
    have hl : ∀ y ∈ l, y ∈ T := by
      intro y hy
      rw [← samples_snd τ l] at hy
      obtain ⟨o, ho, rfl⟩ := List.mem_map.1 hy
      exact atTimes_mem hF h ht hv h2 o ho
    exact Set.mem_biUnion (Finset.mem_coe.2 (Finset.mem_filter.2 ⟨Chain.mem_words.2 ⟨h1, hl⟩, h1, h3⟩)) ⟨hv, h2⟩
  calc volume {v : Fin N → ℝ × ℝ × ℝ | InCube v ∧ SampledFar env s τ k g μ ε N v}
      ≤ ∑ l ∈ (Chain.words T k).filter D, volume {v : Fin N → ℝ × ℝ × ℝ | InCube v ∧ AtTimes env N s (samples τ l) v} :=
        (measure_mono hsub).trans (measure_biUnion_finset_le _ _)
    _ ≤ ∑ l ∈ (Chain.words T k).filter D, ENNReal.ofReal (Chain.weight p s.ms.cfg.types l) := by
        refine Finset.sum_le_sum fun l hl => ?_
        have hl' := (Chain.mem_words.1 (Finset.mem_filter.1 hl).1).2
        have := C72_times hF hr hb hf hst1 hst2 h ht (l := l.map fun y => (τ, y)) (by
          rw [List.forall_mem_map]
          exact fun y hy => ⟨hτ.le, hl' y hy⟩)
        rw [course_weight] at this
        rw [← this, ENNReal.ofReal_toReal (ne_top_of_le_ne_top ENNReal.one_ne_top (chanceAll_le _))]
        exact le_iSup (fun N => volume {v : Fin N → ℝ × ℝ × ℝ | InCube v ∧ AtTimes env N s (samples τ l) v}) N
    _ = ENNReal.ofReal (∑ l ∈ (Chain.words T k).filter D, Chain.weight p s.ms.cfg.types l) :=
        (ENNReal.ofReal_sum_of_nonneg fun l hl =>
          Chain.weight_nonneg hp ht (Chain.mem_words.1 (Finset.mem_filter.1 hl).1).2).symm
    _ ≤ _ := ENNReal.ofReal_le_ofReal hbound

/-- **C73** With more and more samples the average over the samples of a run goes to the average with the stationary weights, in
probability, whatever the types at the start. -/
theorem C73_law (h : GoodRun env n nT negLog cfg procs s) (ht : s.ms.cfg.types ∈ T) (g : List Bucket → ℝ) {τ ε : ℝ} (hτ : 0 < τ)
    (he : 0 < ε) : Tendsto (fun k : ℕ => farChance env s τ k g (∑ y ∈ T, g y * w y) ε) atTop (nhds 0) := by
  obtain ⟨C, hC⟩ := C73_sampled hF hr hb hf hirr hw0 hw1 hw g hτ
  have h1 : Tendsto (fun k : ℕ => ENNReal.ofReal (C / (k * ε ^ 2))) atTop (nhds 0) := by
    rw [← ENNReal.ofReal_zero]
    refine ENNReal.tendsto_ofReal (Tendsto.const_div_atTop ?_ C)
    exact Tendsto.atTop_mul_const (by positivity) tendsto_natCast_atTop_atTop
  refine tendsto_of_tendsto_of_tendsto_of_le_of_le' tendsto_const_nhds h1 (Eventually.of_forall fun _ => zero_le) ?_
  filter_upwards [eventually_gt_atTop 0] with k hk
  exact hC s h ht k hk ε he

/-- **C73** The probability that the average over `k` samples of a run is less than `ε` away from the average with the stationary
weights is at least one minus a constant over `k ε²`. -/
theorem C73_near (g : List Bucket → ℝ) {τ : ℝ} (hτ : 0 < τ) : ∃ C : ℝ, ∀ s, GoodRun env n nT negLog cfg procs s →
    s.ms.cfg.types ∈ T → ∀ k : ℕ, 0 < k → ∀ ε : ℝ, 0 < ε →
      1 - ENNReal.ofReal (C / (k * ε ^ 2)) ≤ nearChance env s τ k g (∑ y ∈ T, g y * w y) ε := by
  obtain ⟨C, hC⟩ := C73_sampled hF hr hb hf hirr hw0 hw1 hw g hτ
  refine ⟨C, fun s h ht k hk ε he => ?_⟩
  rw [tsub_le_iff_right]
  refine le_trans ?_ (add_le_add_right (hC s h ht k hk ε he) _)
  rw [← sampled_total hF hr hb hf h ht hτ hk]
  refine iSup_le fun N => ?_
  refine le_trans ?_ (add_le_add
    (le_iSup (fun N => volume {v : Fin N → ℝ × ℝ × ℝ | InCube v ∧ SampledNear env s τ k g (∑ y ∈ T, g y * w y) ε N v}) N)
    (le_iSup (fun N => volume {v : Fin N → ℝ × ℝ × ℝ | InCube v ∧ SampledFar env s τ k g (∑ y ∈ T, g y * w y) ε N v}) N))
  refine (measure_mono ?_).trans (measure_union_le _ _)
  rintro v ⟨hv, l, h1, h2⟩
  rcases lt_or_ge (|(l.map g).sum / k - ∑ y ∈ T, g y * w y|) ε with h3 | h3
  · exact .inl ⟨hv, l, h1, h2, h3⟩
  · exact .inr ⟨hv, l, h1, h2, h3⟩

end

/-- **C73** With detailed balance the averages are those with the weights of the balance, divided by their sum. -/
theorem C73_balance (hF : ClosedFamily env n nT cfg procs T W) (hr : PositiveRates env procs) {M : Nat}
    (hb : Bounded M cfg procs) (hf : FewEnough M procs)
    (hall : ∀ s, GoodRun env n nT negLog cfg procs s → s.ms.cfg.types ∈ T) {w : List Bucket → ℝ} (hw0 : ∀ x ∈ T, 0 < w x)
    (hw : ∀ x ∈ T, ∀ y ∈ T, w x * W x y = w y * W y x) (h : GoodRun env n nT negLog cfg procs s) (g : List Bucket → ℝ) {τ ε : ℝ}
    (hτ : 0 < τ) (he : 0 < ε) :
    Tendsto (fun k : ℕ => farChance env s τ k g ((∑ y ∈ T, g y * w y) / ∑ x ∈ T, w x) ε) atTop (nhds 0) := by
  have hpos : 0 < ∑ x ∈ T, w x := Finset.sum_pos hw0 ⟨_, hall s h⟩
  have := C73_law hF hr hb hf (fun x hx y hy => C65_connected hF hr hall hw0 hw hx hy)
    (w := fun y => w y / ∑ x ∈ T, w x) (fun x hx => (div_pos (hw0 x hx) hpos).le) (by rw [← Finset.sum_div, div_self hpos.ne'])
    (by
      intro y hy
      rw [Finset.mul_sum]
      refine Finset.sum_congr rfl fun x hx => ?_
      rw [div_mul_eq_mul_div, div_mul_eq_mul_div, hw x hx y hy]) h (hall s h) g hτ he
  simpa only [mul_div_assoc', ← Finset.sum_div] using this

/-- **C73** In a model with constant rates where every process has its reverse, maybe around another place, and the rates of both are
in the ratio of factors of the particles, the averages are those with the products of the factors. -/
theorem C73_elsewhere {P : PyLattice ℝ} (ho : OnSites P env cfg) (hr : PositiveRates env procs) {M : Nat}
    (hb : Bounded M cfg procs) (hf : FewEnough M procs) {rev : Nat → Nat} {δ : Nat → Coord ℝ} {b : Nat → Nat}
    (hrev : ReversibleOn P env.dist procs rev δ b) (hc : ∀ p ∈ procs, p.custom = false) (z : Nat → ℝ) (hz : ∀ k, 0 < z k)
    (hq : ∀ (j : Nat) (p q : Proc ℝ), procs[j]? = some p → procs[rev j]? = some q →
      p.rate = q.rate * ∏ k ∈ Finset.range nT, z k ^ p.net k) :
    ∃ T : Finset (List Bucket), (∀ x, x ∈ T ↔ ∃ s, GoodRun env n nT negLog cfg procs s ∧ s.ms.cfg.types = x) ∧
      ∀ s, GoodRun env n nT negLog cfg procs s → ∀ (g : List Bucket → ℝ) (τ ε : ℝ), 0 < τ → 0 < ε →
        Tendsto (fun k : ℕ => farChance env s τ k g
          ((∑ y ∈ T, g y * productWeight nT z y) / ∑ x ∈ T, productWeight nT z x) ε) atTop (nhds 0) := by
  obtain ⟨T, W, hF, hT⟩ := C64_family (n := n) (nT := nT) hr hb hf hc
  refine ⟨T, fun x => ⟨hF.reached x, ?_⟩, fun s h g τ ε hτ he => ?_⟩
  · rintro ⟨s, h, rfl⟩
    exact (hT s h).1
  · refine C73_balance hF hr hb hf (fun s h => (hT s h).1) (fun x _ => productWeight_pos hz x) ?_ h g hτ he
    intro x hx y hy
    obtain ⟨a, ha, rfl⟩ := hF.reached x hx
    obtain ⟨b, hb', rfl⟩ := hF.reached y hy
    rw [(hT a ha).2, (hT b hb').2]
    exact C59_elsewhere_product ha hb' ho hr hb hf hrev hc z hz hq

/-- **C73** If moreover every process has the rate of its reverse, the averages are those over all possible types. -/
theorem C73_uniform {P : PyLattice ℝ} (ho : OnSites P env cfg) (hr : PositiveRates env procs) {M : Nat}
    (hb : Bounded M cfg procs) (hf : FewEnough M procs) {rev : Nat → Nat} {δ : Nat → Coord ℝ} {b : Nat → Nat}
    (hrev : ReversibleOn P env.dist procs rev δ b) (hc : ∀ p ∈ procs, p.custom = false)
    (hq : ∀ (j : Nat) (p q : Proc ℝ), procs[j]? = some p → procs[rev j]? = some q → p.rate = q.rate) :
    ∃ T : Finset (List Bucket), (∀ x, x ∈ T ↔ ∃ s, GoodRun env n nT negLog cfg procs s ∧ s.ms.cfg.types = x) ∧
      ∀ s, GoodRun env n nT negLog cfg procs s → ∀ (g : List Bucket → ℝ) (τ ε : ℝ), 0 < τ → 0 < ε →
        Tendsto (fun k : ℕ => farChance env s τ k g ((∑ y ∈ T, g y) / T.card) ε) atTop (nhds 0) := by
  obtain ⟨T, h1, h2⟩ := C73_elsewhere (n := n) (nT := nT) ho hr hb hf hrev hc (fun _ => 1) (fun _ => one_pos) (fun j p q hp hq' => by
    simp only [one_zpow, Finset.prod_const_one, mul_one]
    exact hq j p q hp hq')
  refine ⟨T, h1, fun s h g τ ε hτ he => ?_⟩
  have := h2 s h g τ ε hτ he
  simpa [productWeight] using this

/-! ### Non-vacuity -/

/-- A site that turns from `A` to `B` with rate 2 and back with rate 3: the share of the samples with `A` goes to three fifths. -/
example (h : GoodRun Sample.oneEnv 1 3 negLog Sample.oneSite Sample.toAndFro s) {τ ε : ℝ} (hτ : 0 < τ) (he : 0 < ε) :
    Tendsto (fun k : ℕ => farChance Sample.oneEnv s τ k (fun x => if x = [[0, 1, 0]] then 1 else 0) (3 / 5) ε) atTop (nhds 0) := by
  obtain ⟨hb, hf⟩ := bounded_one Sample.oneSite_one Sample.toAndFro_balanced
  have hAB : ([[0, 1, 0]] : List Bucket) ≠ [[0, 0, 1]] := by decide
  let w : List Bucket → ℝ := fun x => if x = [[0, 1, 0]] then 3 / 5 else 2 / 5
  have hpos : ∀ x, 0 < w x := fun x => by dsimp only [w]; split_ifs <;> norm_num
  have hbal : ∀ x ∈ ({[[0, 1, 0]], [[0, 0, 1]]} : Finset (List Bucket)), ∀ y ∈ ({[[0, 1, 0]], [[0, 0, 1]]} : Finset (List Bucket)),
      w x * toAndFroRate x y = w y * toAndFroRate y x := by
    intro x hx y hy
    simp only [Finset.mem_insert, Finset.mem_singleton] at hx hy
    rcases hx with rfl | rfl <;> rcases hy with rfl | rfl <;> norm_num [w, toAndFroRate]
  have := C73_law toAndFro_family Sample.toAndFro_positive hb hf
    (fun x hx y hy => C65_connected toAndFro_family Sample.toAndFro_positive (fun _ h => toAndFro_all h) (fun x _ => hpos x) hbal hx hy)
    (w := w) (fun x _ => (hpos x).le) (by rw [Finset.sum_pair hAB]; norm_num [w]) (fun y hy => by
      rw [Finset.mul_sum]
      exact Finset.sum_congr rfl fun x hx => hbal x hx y hy) h (toAndFro_all h) (fun x => if x = [[0, 1, 0]] then 1 else 0) hτ he
  rw [Finset.sum_pair hAB] at this
  simpa [w] using this

/-- On a ring of four sites a particle that hops to the right and to the left with the same rate is on any site in a quarter of the
samples, wherever it starts. -/
example (h : GoodRun Sample.realRingEnv 4 3 negLog Sample.realRingStart Sample.realHops s) {i : Nat} (hi : i < 4) {τ ε : ℝ}
    (hτ : 0 < τ) (he : 0 < ε) :
    Tendsto (fun k : ℕ => farChance Sample.realRingEnv s τ k (fun x => if x = Sample.ringTypes i then 1 else 0) (1 / 4) ε) atTop
      (nhds 0) := by
  obtain ⟨hb, hf⟩ := bounded_one (cfg := Sample.realRingStart) (by decide) Sample.realHops_balanced
  obtain ⟨T, h1, h2⟩ := C73_uniform (n := 4) (nT := 3) Sample.realRing_onSites Sample.realHops_positive hb hf
    Sample.realHops_reversible (by
      intro p hp
      rcases Sample.mem_realHops.1 hp with rfl | rfl <;> rfl) (by
      intro j p q hp hq
      rcases Sample.mem_realHops.1 (List.mem_of_getElem? hp) with rfl | rfl <;>
      rcases Sample.mem_realHops.1 (List.mem_of_getElem? hq) with rfl | rfl <;> rfl)
  have hT : T = (Finset.range 4).image Sample.ringTypes := by
    ext x
    rw [h1, Sample.realRing_types, Finset.mem_image]
    simp only [Finset.mem_range, eq_comm]
  have hcard : T.card = 4 := by
    rw [hT, Finset.card_image_of_injOn, Finset.card_range]
    intro a ha b _ hab
    exact Sample.ringTypes_injective (Finset.mem_range.1 ha) hab
  have := h2 s h (fun x => if x = Sample.ringTypes i then 1 else 0) τ ε hτ he
  rw [hcard, Finset.sum_ite_eq' T, if_pos ((h1 _).2 ((Sample.realRing_types _).2 ⟨i, hi, rfl⟩))] at this
  exact_mod_cast this

end KMC
