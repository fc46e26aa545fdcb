import Verif.Props.Master
import Verif.Props.Elsewhere
import Verif.Lemmas.Ergodic
import Verif.Samples.RealRing

/-!
# C65: runs go to equilibrium

After a long time the probability of given types is their stationary weight, whatever the types at the start. With
detailed balance (C59) these are the weights of the detailed balance.
-/

set_option linter.unusedSectionVars false

namespace KMC

open LatticeModel Interactions MeasureTheory Classical Filter

variable {env : Env ℝ} {n nT : Nat} {cfg : Config ℝ} {procs : List (Proc ℝ)} {s s' : Sim ℝ}
variable {T : Finset (List Bucket)} {W : List Bucket → List Bucket → ℝ}

/-- There are events that lead from the types `x` to the types `y`, one after the other, through the types of the
family. -/
def Leads (T : Finset (List Bucket)) (W : List Bucket → List Bucket → ℝ) (x y : List Bucket) : Prop :=
  Relation.ReflTransGen (fun a b => b ∈ T ∧ 0 < W a b) x y

theorem Leads.lift {x y : List Bucket} (h : Leads T W x y) (hx : x ∈ T) : ∃ hy : y ∈ T,
    Relation.ReflTransGen (fun a b : {x // x ∈ T} => 0 < W a.1 b.1) ⟨x, hx⟩ ⟨y, hy⟩ := by
  induction h with
  | refl => exact ⟨hx, .refl⟩
  | tail _ hbc ih =>
    obtain ⟨hb, ih⟩ := ih
    exact ⟨hbc.1, ih.tail hbc.2⟩

theorem family_nonneg (hF : ClosedFamily env n nT cfg procs T W) (hr : PositiveRates env procs) (i k : {x // x ∈ T}) :
    0 ≤ W i.1 k.1 := by
  obtain ⟨s, hs, ht⟩ := hF.reached i.1 i.2
  rw [← ht, ← hF.rates s hs (by rw [ht]; exact i.2) k.1 k.2]
  exact flow_nonneg hs hr _

section
variable (hF : ClosedFamily env n nT cfg procs T W) (hr : PositiveRates env procs) {M : Nat}
  (hb : Bounded M cfg procs) (hf : FewEnough M procs)
include hF hr hb hf

/-- **C65** What happens in a time `t + u` happens in a time `t` and then, from the types reached, in a time `u`. -/
theorem C65_semigroup (h : GoodRun env n nT negLog cfg procs s) (ht : s.ms.cfg.types ∈ T) {st : List Bucket → Sim ℝ}
    (hst : ∀ x ∈ T, GoodRun env n nT negLog cfg procs (st x)) (htypes : ∀ x ∈ T, (st x).ms.cfg.types = x)
    {y : List Bucket} (hy : y ∈ T) {t u : ℝ} (h0 : 0 ≤ t) (h1 : 0 ≤ u) :
    (chance env s y (t + u)).toReal = ∑ x ∈ T, (chance env s x t).toReal * (chance env (st x) y u).toReal := by
  let a : Member env n nT cfg procs T := ⟨s, h, ht⟩
  obtain ⟨σ, hσ, ha⟩ := exists_section hF a
  have := Chain.semigroup (P := fun i j t => (chance env (σ i).1 j.1 t).toReal) (fun j => renewal hF hr hb hf σ hσ j)
    (typesOf a) ⟨y, hy⟩ h1 h0
  simp only [ha] at this
  refine this.trans ?_
  rw [← Finset.sum_coe_sort T (fun x => (chance env s x t).toReal * (chance env (st x) y u).toReal)]
  refine Finset.sum_congr rfl fun x _ => ?_
  rw [C64_types hF hr hb hf (σ x).2.1 (hst x.1 x.2) (σ x).2.2 ((congrArg Subtype.val (hσ x)).trans (htypes x.1 x.2).symm) y h1]

/-- **C65** Types that events lead to have a positive probability at every later time. -/
theorem C65_reached (h : GoodRun env n nT negLog cfg procs s) (ht : s.ms.cfg.types ∈ T) {y : List Bucket}
    (hy : Leads T W s.ms.cfg.types y) {t : ℝ} (h0 : 0 < t) : 0 < (chance env s y t).toReal := by
  let a : Member env n nT cfg procs T := ⟨s, h, ht⟩
  obtain ⟨σ, hσ, ha⟩ := exists_section hF a
  obtain ⟨hyT, hl⟩ := hy.lift ht
  have := Chain.reach_pos (P := fun i j t => (chance env (σ i).1 j.1 t).toReal) (fun j => renewal hF hr hb hf σ hσ j)
    (family_nonneg hF hr) (fun _ _ _ => ENNReal.toReal_nonneg) (i := typesOf a) hl h0
  simp only [ha] at this
  exact this

variable (hirr : ∀ x ∈ T, ∀ y ∈ T, Leads T W x y) {w : List Bucket → ℝ} (hw0 : ∀ x ∈ T, 0 ≤ w x) (hw1 : ∑ x ∈ T, w x = 1)
  (hw : ∀ y ∈ T, ∑ x ∈ T, w x * W x y = w y * ∑ x ∈ T, W y x)
include hirr hw0 hw1 hw

/-- **C65** If events lead from everywhere to everywhere, the distance of the probabilities from the stationary weights
decreases at least exponentially, at a rate that does not depend on the start. -/
theorem C65_rate : ∃ δ : ℝ, 0 < δ ∧ δ ≤ 1 ∧ ∀ s, GoodRun env n nT negLog cfg procs s → s.ms.cfg.types ∈ T → ∀ y ∈ T,
    ∀ (m : ℕ) (t : ℝ), 0 ≤ t → |(chance env s y (m + t)).toReal - w y| ≤ (1 - δ) ^ m := by
  by_cases hne : ∃ s, GoodRun env n nT negLog cfg procs s ∧ s.ms.cfg.types ∈ T
  · obtain ⟨s, h, ht⟩ := hne
    obtain ⟨σ, hσ, -⟩ := exists_section hF ⟨s, h, ht⟩
    obtain ⟨δ, d1, d2, hd⟩ := Chain.equilibrium_rate (P := fun i j t => (chance env (σ i).1 j.1 t).toReal)
      (fun j => renewal hF hr hb hf σ hσ j) (family_nonneg hF hr) (fun _ _ _ => ENNReal.toReal_nonneg) (fun _ => rfl)
      (fun i j => ((hirr i.1 i.2 j.1 j.2).lift i.2).2) (w := fun i => w i.1) (fun i => hw0 i.1 i.2)
      (by rw [Finset.sum_coe_sort T w]; exact hw1) (fun j => by
        rw [Finset.sum_coe_sort T (fun x => w x * W x j.1), Finset.sum_coe_sort T (fun x => W j.1 x)]
        exact hw j.1 j.2)
    refine ⟨δ, d1, d2, fun s h ht y hy m t h0 => ?_⟩
    rw [C64_types hF hr hb hf h (σ ⟨_, ht⟩).2.1 ht (congrArg Subtype.val (hσ ⟨_, ht⟩)).symm y (by positivity)]
    exact hd ⟨_, ht⟩ ⟨y, hy⟩ m t h0
  · exact ⟨1, one_pos, le_rfl, fun s h ht => absurd ⟨s, h, ht⟩ hne⟩

/-- **C65** If events lead from everywhere to everywhere, the probabilities go to the stationary weights. -/
theorem C65_equilibrium (h : GoodRun env n nT negLog cfg procs s) (ht : s.ms.cfg.types ∈ T) {y : List Bucket} (hy : y ∈ T) :
    Tendsto (fun t => (chance env s y t).toReal) atTop (nhds (w y)) := by
  let a : Member env n nT cfg procs T := ⟨s, h, ht⟩
  obtain ⟨σ, hσ, ha⟩ := exists_section hF a
  have := Chain.equilibrium (P := fun i j t => (chance env (σ i).1 j.1 t).toReal)
      (fun j => renewal hF hr hb hf σ hσ j) (family_nonneg hF hr) (fun _ _ _ => ENNReal.toReal_nonneg) (fun _ => rfl)
      (fun i j => ((hirr i.1 i.2 j.1 j.2).lift i.2).2) (w := fun i => w i.1) (fun i => hw0 i.1 i.2)
      (by rw [Finset.sum_coe_sort T w]; exact hw1) (fun j => by
        rw [Finset.sum_coe_sort T (fun x => w x * W x j.1), Finset.sum_coe_sort T (fun x => W j.1 x)]
        exact hw j.1 j.2) (typesOf a) ⟨y, hy⟩
  simp only [ha] at this
  exact this

end

/-! ### Detailed balance -/

theorem step_leads {d : Draws ℝ} (hs : step env negLog s d = .ok s') : ∃ j site, LeadsTo env s j site s'.ms.cfg.types := by
  obtain ⟨s0, hs0, -⟩ := step_single hs
  unfold singleStep at hs0
  obtain ⟨⟨j, site, ps⟩, he, -⟩ := bind_ok.1 hs0
  exact ⟨j, site, d, ps, s', he, hs, rfl⟩

theorem flow_pos (h : GoodRun env n nT negLog cfg procs s) (hr : PositiveRates env procs) {j site : Nat} {t : List Bucket}
    (hl : LeadsTo env s j site t) : 0 < flow env n s t := by
  obtain ⟨p, hp, hsite⟩ := hl.listed h
  obtain ⟨-, -, -, -, -, hpos⟩ := listed_weight h hr (e := (j, site)) ⟨p, hp, hsite⟩
  unfold flow
  refine Finset.sum_pos' (fun e _ => ?_) ⟨(j, site), ?_, ?_⟩
  · split
    · by_cases he : ListedEvent s e
      · obtain ⟨p, k, -, -, -, h⟩ := listed_weight h hr he
        exact h.le
      · rw [rateAt_not_listed he]
    · exact le_rfl
  · rw [Finset.mem_product, Finset.mem_range, Finset.mem_range]
    exact ⟨(List.getElem?_eq_some_iff.1 hp).1, ((C24_available h hp site).1 hsite).1⟩
  · rw [if_pos hl]
    exact hpos

/-- Events lead from the start to every state of every run. -/
theorem leads_from_start (hF : ClosedFamily env n nT cfg procs T W) (hr : PositiveRates env procs)
    (hall : ∀ s, GoodRun env n nT negLog cfg procs s → s.ms.cfg.types ∈ T) {s0 : Sim ℝ} (hinit : init env cfg procs = .ok s0)
    (h : GoodRun env n nT negLog cfg procs s) : Leads T W s0.ms.cfg.types s.ms.cfg.types := by
  obtain ⟨h1, h2, s0', ds, h3, h4⟩ := h
  obtain rfl := Except.ok.inj (hinit.symm.trans h3)
  have key : ∀ (ds : List (Draws ℝ)) (a b : Sim ℝ), GoodRun env n nT negLog cfg procs a → run env negLog ds a = .ok b →
      Leads T W a.ms.cfg.types b.ms.cfg.types := by
    intro ds
    induction ds with
    | nil =>
      intro a b _ hab
      unfold run loopM at hab
      obtain rfl := Except.ok.inj hab
      exact .refl
    | cons d ds ih =>
      intro a b ha hab
      unfold run at hab
      rw [loopM_cons] at hab
      obtain ⟨c, hc, hcb⟩ := bind_ok.1 hab
      have hgc := ha.step hc
      obtain ⟨j, site, hl⟩ := step_leads hc
      refine Relation.ReflTransGen.head ⟨hall c hgc, ?_⟩ (ih c b hgc hcb)
      rw [← hF.rates a ha (hall a ha) _ (hall c hgc)]
      exact flow_pos ha hr hl
  exact key ds s0 s ⟨h1, h2, s0, [], hinit, rfl⟩ h4

/-- **C65** With detailed balance for positive weights, events lead from everywhere to everywhere. -/
theorem C65_connected (hF : ClosedFamily env n nT cfg procs T W) (hr : PositiveRates env procs)
    (hall : ∀ s, GoodRun env n nT negLog cfg procs s → s.ms.cfg.types ∈ T) {w : List Bucket → ℝ} (hw0 : ∀ x ∈ T, 0 < w x)
    (hw : ∀ x ∈ T, ∀ y ∈ T, w x * W x y = w y * W y x) {x y : List Bucket} (hx : x ∈ T) (hy : y ∈ T) : Leads T W x y := by
  obtain ⟨a, ha, rfl⟩ := hF.reached x hx
  obtain ⟨b, hb, rfl⟩ := hF.reached y hy
  obtain ⟨s0, ds, hinit, -⟩ := ha.reached
  have h0 : s0.ms.cfg.types ∈ T := hall s0 ⟨ha.input, ha.custom, s0, [], hinit, rfl⟩
  refine Relation.ReflTransGen.trans ?_ (leads_from_start hF hr hall hinit hb)
  have h1 := leads_from_start hF hr hall hinit ha
  have key : ∀ {u v : List Bucket}, u ∈ T → Leads T W u v → Leads T W v u ∧ v ∈ T := by
    intro u v hu h
    induction h with
    | refl => exact ⟨.refl, hu⟩
    | @tail b c _ hbc ih =>
      refine ⟨Relation.ReflTransGen.head ⟨ih.2, ?_⟩ ih.1, hbc.1⟩
      have := hw b ih.2 c hbc.1
      have hp : 0 < w c * W c b := by rw [← this]; exact mul_pos (hw0 b ih.2) hbc.2
      exact (pos_iff_pos_of_mul_pos hp).1 (hw0 c hbc.1)
  exact (key h0 h1).1

/-- **C65** With detailed balance for positive weights, the probabilities go to these weights divided by their sum. -/
theorem C65_balance (hF : ClosedFamily env n nT cfg procs T W) (hr : PositiveRates env procs) {M : Nat}
    (hb : Bounded M cfg procs) (hf : FewEnough M procs)
    (hall : ∀ s, GoodRun env n nT negLog cfg procs s → s.ms.cfg.types ∈ T) {w : List Bucket → ℝ} (hw0 : ∀ x ∈ T, 0 < w x)
    (hw : ∀ x ∈ T, ∀ y ∈ T, w x * W x y = w y * W y x) (h : GoodRun env n nT negLog cfg procs s) {y : List Bucket}
    (hy : y ∈ T) : Tendsto (fun t => (chance env s y t).toReal) atTop (nhds (w y / ∑ x ∈ T, w x)) := by
  have hpos : 0 < ∑ x ∈ T, w x := Finset.sum_pos hw0 ⟨y, hy⟩
  refine C65_equilibrium hF hr hb hf (fun x hx y hy => C65_connected hF hr hall hw0 hw hx hy)
    (w := fun y => w y / ∑ x ∈ T, w x) (fun x hx => (div_pos (hw0 x hx) hpos).le) ?_ ?_ h (hall s h) hy
  · rw [← Finset.sum_div, div_self hpos.ne']
  · intro y hy
    rw [Finset.mul_sum]
    refine Finset.sum_congr rfl fun x hx => ?_
    rw [div_mul_eq_mul_div, div_mul_eq_mul_div, hw x hx y hy]

theorem productWeight_pos {z : Nat → ℝ} (hz : ∀ k, 0 < z k) (x : List Bucket) : 0 < productWeight nT z x :=
  Finset.prod_pos fun k _ => zpow_pos (hz k) _

/-- **C65** In a model with constant rates where every process has its reverse, and the rates of both are in the ratio of
factors of the particles, the probability of given types goes to the product of the factors of the particles, divided by
the sum of these products over all types that are possible. -/
theorem C65_product (hr : PositiveRates env procs) {M : Nat} (hb : Bounded M cfg procs) (hf : FewEnough M procs)
    {rev : Nat → Nat} (hrev : Reversible procs rev) (hc : ∀ p ∈ procs, p.custom = false) (z : Nat → ℝ) (hz : ∀ k, 0 < z k)
    (hq : ∀ (j : Nat) (p q : Proc ℝ), procs[j]? = some p → procs[rev j]? = some q →
      p.rate = q.rate * ∏ k ∈ Finset.range nT, z k ^ p.net k) :
    ∃ T : Finset (List Bucket), (∀ x, x ∈ T ↔ ∃ s, GoodRun env n nT negLog cfg procs s ∧ s.ms.cfg.types = x) ∧
      ∀ s, GoodRun env n nT negLog cfg procs s → ∀ y ∈ T, Tendsto (fun t => (chance env s y t).toReal) atTop
        (nhds (productWeight nT z y / ∑ x ∈ T, productWeight nT z x)) := by
  obtain ⟨T, W, hF, hT⟩ := C64_family (n := n) (nT := nT) hr hb hf hc
  refine ⟨T, fun x => ⟨hF.reached x, ?_⟩, fun s h y hy => ?_⟩
  · rintro ⟨s, h, rfl⟩
    exact (hT s h).1
  · refine C65_balance hF hr hb hf (fun s h => (hT s h).1) (fun x _ => productWeight_pos hz x) ?_ h hy
    intro x hx y hy
    obtain ⟨a, ha, rfl⟩ := hF.reached x hx
    obtain ⟨b, hb', rfl⟩ := hF.reached y hy
    rw [(hT a ha).2, (hT b hb').2]
    exact C59_product ha hb' hr hb hf hrev hc z hz hq

/-- **C65** The same with reverses around other places, such as hops to the left and to the right. -/
theorem C65_elsewhere {P : PyLattice ℝ} (ho : OnSites P env cfg) (hr : PositiveRates env procs) {M : Nat}
    (hb : Bounded M cfg procs) (hf : FewEnough M procs) {rev : Nat → Nat} {δ : Nat → Coord ℝ} {b : Nat → Nat}
    (hrev : ReversibleOn P env.dist procs rev δ b) (hc : ∀ p ∈ procs, p.custom = false) (z : Nat → ℝ) (hz : ∀ k, 0 < z k)
    (hq : ∀ (j : Nat) (p q : Proc ℝ), procs[j]? = some p → procs[rev j]? = some q →
      p.rate = q.rate * ∏ k ∈ Finset.range nT, z k ^ p.net k) :
    ∃ T : Finset (List Bucket), (∀ x, x ∈ T ↔ ∃ s, GoodRun env n nT negLog cfg procs s ∧ s.ms.cfg.types = x) ∧
      ∀ s, GoodRun env n nT negLog cfg procs s → ∀ y ∈ T, Tendsto (fun t => (chance env s y t).toReal) atTop
        (nhds (productWeight nT z y / ∑ x ∈ T, productWeight nT z x)) := by
  obtain ⟨T, W, hF, hT⟩ := C64_family (n := n) (nT := nT) hr hb hf hc
  refine ⟨T, fun x => ⟨hF.reached x, ?_⟩, fun s h y hy => ?_⟩
  · rintro ⟨s, h, rfl⟩
    exact (hT s h).1
  · refine C65_balance hF hr hb hf (fun s h => (hT s h).1) (fun x _ => productWeight_pos hz x) ?_ h hy
    intro x hx y hy
    obtain ⟨a, ha, rfl⟩ := hF.reached x hx
    obtain ⟨b, hb', rfl⟩ := hF.reached y hy
    rw [(hT a ha).2, (hT b hb').2]
    exact C59_elsewhere_product ha hb' ho hr hb hf hrev hc z hz hq

/-- **C65** If moreover every process has the rate of its reverse, all possible types become equally probable. -/
theorem C65_uniform {P : PyLattice ℝ} (ho : OnSites P env cfg) (hr : PositiveRates env procs) {M : Nat}
    (hb : Bounded M cfg procs) (hf : FewEnough M procs) {rev : Nat → Nat} {δ : Nat → Coord ℝ} {b : Nat → Nat}
    (hrev : ReversibleOn P env.dist procs rev δ b) (hc : ∀ p ∈ procs, p.custom = false)
    (hq : ∀ (j : Nat) (p q : Proc ℝ), procs[j]? = some p → procs[rev j]? = some q → p.rate = q.rate) :
    ∃ T : Finset (List Bucket), (∀ x, x ∈ T ↔ ∃ s, GoodRun env n nT negLog cfg procs s ∧ s.ms.cfg.types = x) ∧
      ∀ s, GoodRun env n nT negLog cfg procs s → ∀ y ∈ T, Tendsto (fun t => (chance env s y t).toReal) atTop
        (nhds (1 / T.card)) := by
  obtain ⟨T, h1, h2⟩ := C65_elsewhere (n := n) (nT := nT) ho hr hb hf hrev hc (fun _ => 1) (fun _ => one_pos) (fun j p q hp hq' => by
    simp only [one_zpow, Finset.prod_const_one, mul_one]
    exact hq j p q hp hq')
  refine ⟨T, h1, fun s h y hy => ?_⟩
  have := h2 s h y hy
  simpa [productWeight] using this

/-! ### Non-vacuity -/

/-- All states of runs are in a family that the start is in. -/
theorem ClosedFamily.all (hF : ClosedFamily env n nT cfg procs T W)
    (hinit : ∀ s0, init env cfg procs = .ok s0 → s0.ms.cfg.types ∈ T) (h : GoodRun env n nT negLog cfg procs s) :
    s.ms.cfg.types ∈ T := by
  obtain ⟨h1, h2, s0, ds, h3, h4⟩ := h
  have key : ∀ (ds : List (Draws ℝ)) (a b : Sim ℝ), GoodRun env n nT negLog cfg procs a → a.ms.cfg.types ∈ T →
      run env negLog ds a = .ok b → b.ms.cfg.types ∈ T := by
    intro ds
    induction ds with
    | nil =>
      intro a b _ ht hab
      unfold run loopM at hab
      obtain rfl := Except.ok.inj hab
      exact ht
    | cons d ds ih =>
      intro a b ha ht hab
      unfold run at hab
      rw [loopM_cons] at hab
      obtain ⟨c, hc, hcb⟩ := bind_ok.1 hab
      obtain ⟨j, site, hl⟩ := step_leads hc
      exact ih c b (ha.step hc) (hF.closed a ha ht j site _ hl) hcb
  exact key ds s0 s ⟨h1, h2, s0, [], h3, rfl⟩ (hinit s0 h3) h4

/-- The states of the sample have `A` or `B` on the site. -/
theorem toAndFro_all (h : GoodRun Sample.oneEnv 1 3 negLog Sample.oneSite Sample.toAndFro s) :
    s.ms.cfg.types ∈ ({[[0, 1, 0]], [[0, 0, 1]]} : Finset (List Bucket)) := by
  refine toAndFro_family.all (fun s0 h0 => ?_) h
  unfold init at h0
  obtain ⟨ms, hms, h0⟩ := bind_ok.1 h0
  cases h0
  obtain ⟨cfg1, procs1, hprep, -, -, hsame⟩ := initialMatching_inv h.input h.custom hms
  rw [hsame.types, (lists_of h.input hprep.1).rest]
  exact Finset.mem_insert_self _ _

/-- Non-vacuity of `C65_product`: a site that turns from `A` to `B` with rate 2 and back with rate 3. The factors of `A` and `B`
are 3 and 2, and the probabilities of `A` and of `B` go to 3/5 and to 2/5 from any state. -/
example (h : GoodRun Sample.oneEnv 1 3 negLog Sample.oneSite Sample.toAndFro s) :
    Tendsto (fun t => (chance Sample.oneEnv s [[0, 1, 0]] t).toReal) atTop (nhds (3 / 5)) ∧
    Tendsto (fun t => (chance Sample.oneEnv s [[0, 0, 1]] t).toReal) atTop (nhds (2 / 5)) := by
  obtain ⟨hb, hf⟩ := bounded_one Sample.oneSite_one Sample.toAndFro_balanced
  let z : Nat → ℝ := fun k => if k = 1 then 3 else if k = 2 then 2 else 1
  obtain ⟨T, h1, h2⟩ := C65_product (n := 1) (nT := 3) Sample.toAndFro_positive hb hf toAndFro_reversible (by
      intro p hp
      simp only [Sample.toAndFro, List.mem_cons, List.not_mem_nil, or_false] at hp
      rcases hp with rfl | rfl <;> rfl) z (fun k => by dsimp only [z]; split_ifs <;> norm_num) (by
      intro j p q hp hq
      match j, hp, hq with
      | 0, hp, hq =>
        obtain rfl := Option.some.inj hp
        obtain rfl := Option.some.inj hq
        simp [Finset.prod_range_succ, Proc.net, Sample.turn, z]
      | 1, hp, hq =>
        obtain rfl := Option.some.inj hp
        obtain rfl := Option.some.inj hq
        simp [Finset.prod_range_succ, Proc.net, Sample.turn, z]
        norm_num
      | j + 2, hp, hq => simp [Sample.toAndFro] at hp)
  have hT : T = {[[0, 1, 0]], [[0, 0, 1]]} := by
    ext x
    rw [h1]
    constructor
    · rintro ⟨s, h, rfl⟩
      exact toAndFro_all h
    · exact toAndFro_family.reached x
  subst hT
  have hAB : ([[0, 1, 0]] : List Bucket) ≠ [[0, 0, 1]] := by decide
  have e1 : productWeight 3 z [[0, 1, 0]] = 3 := by simp [productWeight, Finset.prod_range_succ, z]
  have e2 : productWeight 3 z [[0, 0, 1]] = 2 := by simp [productWeight, Finset.prod_range_succ, z]
  have e3 : ∑ x ∈ ({[[0, 1, 0]], [[0, 0, 1]]} : Finset (List Bucket)), productWeight 3 z x = 5 := by
    rw [Finset.sum_pair hAB, e1, e2]
    norm_num
  have k1 := h2 s h [[0, 1, 0]] (by simp)
  have k2 := h2 s h [[0, 0, 1]] (by simp)
  rw [e1, e3] at k1
  rw [e2, e3] at k2
  exact ⟨k1, k2⟩

/-- Non-vacuity of `C65_uniform`: on a ring of four sites a particle that hops to the right and to the left with the same rate
is on any site with probability 1/4 after a long time, wherever it starts. -/
example (h : GoodRun Sample.realRingEnv 4 3 negLog Sample.realRingStart Sample.realHops s) {i : Nat} (hi : i < 4) :
    Tendsto (fun t => (chance Sample.realRingEnv s (Sample.ringTypes i) t).toReal) atTop (nhds (1 / 4)) := by
  obtain ⟨hb, hf⟩ := bounded_one (cfg := Sample.realRingStart) (by decide) Sample.realHops_balanced
  obtain ⟨T, h1, h2⟩ := C65_uniform (n := 4) (nT := 3) Sample.realRing_onSites Sample.realHops_positive hb hf
    Sample.realHops_reversible (by
      intro p hp
      rcases Sample.mem_realHops.1 hp with rfl | rfl <;> rfl) (by
      intro j p q hp hq
      rcases Sample.mem_realHops.1 (List.mem_of_getElem? hp) with rfl | rfl <;>
      rcases Sample.mem_realHops.1 (List.mem_of_getElem? hq) with rfl | rfl <;> rfl)
  have hT : T = (Finset.range 4).image Sample.ringTypes := by
    ext x
    rw [h1, Sample.realRing_types, Finset.mem_image]
    simp only [Finset.mem_range, eq_comm]
  have hcard : T.card = 4 := by
    rw [hT, Finset.card_image_of_injOn, Finset.card_range]
    intro a ha b _ hab
    exact Sample.ringTypes_injective (Finset.mem_range.1 ha) hab
  have := h2 s h (Sample.ringTypes i) ((h1 _).2 ((Sample.realRing_types _).2 ⟨i, hi, rfl⟩))
  rw [hcard] at this
  exact_mod_cast this

end KMC
