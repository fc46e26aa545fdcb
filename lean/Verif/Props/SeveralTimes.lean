import Verif.Props.TimeReversal
import Verif.Lemmas.Joint

/-!
# C72: the types at several times

The probability that a run has given types at each of several times is the product of the probabilities from each time to the
next. So what comes later depends on the types at a time only, and not on what came before.
-/

set_option linter.unusedSectionVars false

namespace KMC

open LatticeModel Interactions MeasureTheory Classical

/-- With these random numbers the model has the listed types at the listed times from now on, and this is known after at most
`N` events, or the model got to a state without available sites by then. -/
def AtTimes (env : Env ℝ) : (N : Nat) → Sim ℝ → List (ℝ × List Bucket) → (Fin N → ℝ × ℝ × ℝ) → Prop
  | 0, _, l, _ => l = []
  | N + 1, s, l, w => l = [] ∨ (totalAvailableSites s.ms.procs = 0 ∧ ∀ o ∈ l, s.ms.cfg.types = o.2) ∨
      (totalAvailableSites s.ms.procs ≠ 0 ∧ ∃ s', step env negLog s (drawsOf (w 0)) = .ok s' ∧
        (∀ o ∈ l, o.1 < s'.time - s.time → s.ms.cfg.types = o.2) ∧
        AtTimes env N s' ((l.filter fun o => s'.time - s.time ≤ o.1).map fun o => (o.1 - (s'.time - s.time), o.2))
          (fun i => w i.succ))

/-- The probability, with independent uniform random numbers, that the model has the listed types at the listed times from now
on. -/
noncomputable def chanceAll (env : Env ℝ) (s : Sim ℝ) (l : List (ℝ × List Bucket)) : ENNReal :=
  ⨆ N, volume {w : Fin N → ℝ × ℝ × ℝ | InCube w ∧ AtTimes env N s l w}

/-- The times from now on, for times in between. -/
noncomputable def sums : ℝ → List (ℝ × List Bucket) → List (ℝ × List Bucket)
  | _, [] => []
  | c, (t, y) :: l => (c + t, y) :: sums (c + t) l

theorem atTimes_nil (env : Env ℝ) (N : Nat) (s : Sim ℝ) (w : Fin N → ℝ × ℝ × ℝ) : AtTimes env N s [] w := by
  cases N with
  | zero => rfl
  | succ N => exact .inl rfl

theorem atTimes_time (env : Env ℝ) (N : Nat) {s s' : Sim ℝ} (h1 : s.ms = s'.ms) (h2 : s.table = s'.table)
    (l : List (ℝ × List Bucket)) (w : Fin N → ℝ × ℝ × ℝ) : AtTimes env N s l w ↔ AtTimes env N s' l w := by
  have key : ∀ (N : Nat) (s s' : Sim ℝ), s.ms = s'.ms → s.table = s'.table → ∀ (l : List (ℝ × List Bucket))
      (w : Fin N → ℝ × ℝ × ℝ), AtTimes env N s l w → AtTimes env N s' l w := by
    intro N
    induction N with
    | zero => exact fun _ _ _ _ _ _ h => h
    | succ N ih =>
      intro s s' h1 h2 l w h
      rcases h with h | h | ⟨h0, a, ha, h⟩
      · exact .inl h
      · right; left
        rw [← h1]
        exact h
      · refine .inr (.inr ⟨by rw [← h1]; exact h0, _, step_shift h1 h2 ha, ?_⟩)
        have e : s'.time + (a.time - s.time) - s'.time = a.time - s.time := by ring
        simp only [e]
        rw [← h1]
        exact ⟨h.1, ih a _ (by rfl) (by rfl) _ _ h.2⟩
  exact ⟨key N s s' h1 h2 l w, key N s' s h1.symm h2.symm l w⟩

variable {env : Env ℝ} {n nT : Nat} {cfg : Config ℝ} {procs : List (Proc ℝ)} {s s' : Sim ℝ}
  {T : Finset (List Bucket)} {W : List Bucket → List Bucket → ℝ}

/-- The types of a listed member. -/
def bare (l : List (ℝ × {x // x ∈ T})) : List (ℝ × List Bucket) := l.map fun o => (o.1, o.2.1)

theorem sums_bare (c : ℝ) (l : List (ℝ × {x // x ∈ T})) : sums c (bare l) = bare (Chain.Jumps.stops c l) := by
  induction l generalizing c with
  | nil => rfl
  | cons o l ih =>
    show (c + o.1, o.2.1) :: sums (c + o.1) (bare l) = (c + o.1, o.2.1) :: bare (Chain.Jumps.stops (c + o.1) l)
    rw [ih]

theorem bare_later (d : ℝ) (l : List (ℝ × {x // x ∈ T})) :
    ((bare l).filter fun o => d ≤ o.1).map (fun o => (o.1 - d, o.2)) =
      bare ((l.filter fun o => d ≤ o.1).map fun o => (o.1 - d, o.2)) := by
  unfold bare
  rw [List.filter_map, List.map_map, List.map_map]
  rfl

theorem exists_bare {l : List (ℝ × List Bucket)} (hl : ∀ o ∈ l, o.2 ∈ T) : ∃ L : List (ℝ × {x // x ∈ T}), bare L = l := by
  induction l with
  | nil => exact ⟨[], rfl⟩
  | cons o l ih =>
    obtain ⟨L, hL⟩ := ih fun o ho => hl o (List.mem_cons_of_mem _ ho)
    refine ⟨(o.1, ⟨o.2, hl o List.mem_cons_self⟩) :: L, ?_⟩
    show (o.1, o.2) :: bare L = o :: l
    rw [hL]

/-- The jumps are those of the model. -/
theorem jumps_visits (hF : ClosedFamily env n nT cfg procs T W) (hr : PositiveRates env procs) {M : Nat}
    (hb : Bounded M cfg procs) (hf : FewEnough M procs) (N : Nat) (s : Member env n nT cfg procs T) {t : ℝ} (ht : 0 ≤ t)
    (y : {x // x ∈ T}) {l : List (ℝ × {x // x ∈ T})} (hl : ∀ o ∈ l, 0 ≤ o.1) (w : Fin N → ℝ × ℝ × ℝ) :
    w ∈ (jumps hF hr hb hf).Visits typesOf t y l N s ↔
      InCube w ∧ AtTimes env N s.1 (bare (Chain.Jumps.stops 0 ((t, y) :: l))) w := by
  induction N generalizing s t y l with
  | zero =>
    refine iff_of_false (Chain.Jumps.visits_zero t y l s w) fun h => ?_
    have := h.2
    exact absurd this (by simp [AtTimes, bare, Chain.Jumps.stops])
  | succ N ih =>
    have hcube : InCube w ↔ ((w 0).1 ∈ Set.Ico (0 : ℝ) 1 ∧ (w 0).2.1 ∈ Set.Ico (0 : ℝ) 1 ∧
        (w 0).2.2 ∈ Set.Ico (0 : ℝ) 1) ∧ InCube (fun i : Fin N => w i.succ) := Fin.forall_fin_succ
    have hne : bare (Chain.Jumps.stops 0 ((t, y) :: l)) ≠ [] := by simp [bare, Chain.Jumps.stops]
    by_cases ha : totalAvailableSites s.1.ms.procs = 0
    · have hall : ∀ (c : ℝ) (l : List (ℝ × {x // x ∈ T})), (∀ o ∈ bare (Chain.Jumps.stops c l), s.1.ms.cfg.types = o.2) ↔
          ∀ o ∈ l, typesOf s = o.2 := by
        intro c l
        induction l generalizing c with
        | nil => simp [bare, Chain.Jumps.stops]
        | cons o l ih =>
          show (∀ p ∈ (c + o.1, o.2.1) :: bare (Chain.Jumps.stops (c + o.1) l), s.1.ms.cfg.types = p.2) ↔ _
          rw [List.forall_mem_cons, List.forall_mem_cons, ih]
          exact and_congr_left fun _ => (Subtype.ext_iff (a1 := typesOf s) (a2 := o.2)).symm
      rw [Chain.Jumps.visits_halted (J := jumps hF hr hb hf) ha, ← hall 0]
      constructor
      · exact fun h => ⟨h.2, .inr (.inl ⟨ha, h.1⟩)⟩
      · rintro ⟨hc, h | ⟨-, h⟩ | ⟨h, -⟩⟩
        · exact absurd h hne
        · exact ⟨h, hc⟩
        · exact absurd ha h
    · have hlt : ∀ o ∈ (t, y) :: l, 0 ≤ o.1 := by
        rw [List.forall_mem_cons]
        exact ⟨ht, hl⟩
      -- the part after the first event
      have hstay : ∀ (e : Nat × Nat) (d : ℝ), Chain.Jumps.Stay (typesOf s)
          (fun t y l => (fun i => w (Fin.succ i)) ∈ (jumps hF hr hb hf).Visits typesOf t y l N ((jumps hF hr hb hf).next s e))
          ((fun i => w (Fin.succ i)) ∈ Chain.unitCube N) d ((t, y) :: l) ↔
          (∀ o ∈ bare (Chain.Jumps.stops 0 ((t, y) :: l)), o.1 < d → s.1.ms.cfg.types = o.2) ∧
          InCube (fun i : Fin N => w i.succ) ∧ AtTimes env N ((jumps hF hr hb hf).next s e).1
            (((bare (Chain.Jumps.stops 0 ((t, y) :: l))).filter fun o => d ≤ o.1).map fun o => (o.1 - d, o.2))
            (fun i => w i.succ) := by
        intro e d
        have := Chain.Jumps.stay_stops (i := typesOf s)
          (K := fun t y l => (fun i => w (Fin.succ i)) ∈ (jumps hF hr hb hf).Visits typesOf t y l N ((jumps hF hr hb hf).next s e))
          (C := (fun i => w (Fin.succ i)) ∈ Chain.unitCube N)
          (K' := fun L => InCube (fun i : Fin N => w i.succ) ∧ AtTimes env N ((jumps hF hr hb hf).next s e).1 (bare L)
            (fun i => w i.succ))
          ⟨fun h => ⟨h, atTimes_nil _ _ _ _⟩, fun h => h.1⟩ (fun t y l h1 h2 => ih _ h1 y h2 _) 0 d hlt
        rw [sub_zero] at this
        rw [this, bare_later]
        refine and_congr_left fun _ => ?_
        unfold bare
        rw [List.forall_mem_map]
        refine forall₂_congr fun o _ => imp_congr_right fun _ => ?_
        exact Subtype.ext_iff
      rw [Chain.Jumps.visits_jump (J := jumps hF hr hb hf) ha ht y hl]
      simp only [hstay]
      constructor
      · rintro ⟨e, he, hp, h0, h1, h2, h3⟩
        have c1 : (w 0).1 ∈ Set.Ico (0 : ℝ) 1 := ⟨h0.1.le, h0.2⟩
        refine ⟨hcube.2 ⟨⟨c1, hp.1, hp.2.1⟩, h2⟩, .inr (.inr ⟨ha, _, (step_listed s.2.1 hr ha
          (fun e he => jumps_next hF hr hb hf s he) c1 hp.1 hp.2.1).2 ⟨e, (mem_eventsOf s.2.1).1 he, hp, h0, rfl⟩, ?_⟩)⟩
        simp only [add_sub_cancel_left]
        exact ⟨h1, (atTimes_time env N (by rfl) (by rfl) _ _).2 h3⟩
      · rintro ⟨hc, h | ⟨h, -⟩ | ⟨-, s', hs', h⟩⟩
        · exact absurd h hne
        · exact absurd h ha
        · obtain ⟨⟨c1, c2, c3⟩, c4⟩ := hcube.1 hc
          obtain ⟨e, he, hp, h0, rfl⟩ := (step_listed s.2.1 hr ha (fun e he => jumps_next hF hr hb hf s he) c1 c2 c3).1 hs'
          simp only [add_sub_cancel_left] at h
          exact ⟨e, (mem_eventsOf s.2.1).2 he, hp, h0, h.1, c4, (atTimes_time env N (by rfl) (by rfl) _ _).1 h.2⟩

section
variable (hF : ClosedFamily env n nT cfg procs T W) (hr : PositiveRates env procs) {M : Nat} (hb : Bounded M cfg procs)
  (hf : FewEnough M procs) {st : List Bucket → Sim ℝ} (hst : ∀ x ∈ T, GoodRun env n nT negLog cfg procs (st x))
  (htypes : ∀ x ∈ T, (st x).ms.cfg.types = x)
include hF hr hb hf hst htypes

/-- **C72** The probability of types at several times is the product of the probabilities from each time to the next. With C64
these are the solutions of the master equation, so the types of a run are those of the Markov chain with the rates `W`. -/
theorem C72_times (h : GoodRun env n nT negLog cfg procs s) (ht : s.ms.cfg.types ∈ T)
    {l : List (ℝ × List Bucket)} (hl : ∀ o ∈ l, 0 ≤ o.1 ∧ o.2 ∈ T) :
    (chanceAll env s (sums 0 l)).toReal = courseChance env st s.ms.cfg.types l := by
  cases l with
  | nil =>
    have : chanceAll env s (sums 0 []) = 1 := by
      have hv : ∀ N, volume {w : Fin N → ℝ × ℝ × ℝ | InCube w ∧ AtTimes env N s (sums 0 []) w} = 1 := by
        intro N
        rw [← Chain.volume_unitCube N]
        congr 1
        ext w
        exact ⟨fun h => h.1, fun h => ⟨h, atTimes_nil _ _ _ _⟩⟩
      unfold chanceAll
      simp only [hv, ciSup_const]
    rw [this]
    rfl
  | cons o l =>
    obtain ⟨t, y⟩ := o
    obtain ⟨L, rfl⟩ := exists_bare (T := T) (l := l) fun o ho => (hl o (List.mem_cons_of_mem _ ho)).2
    obtain ⟨h0, hy⟩ : 0 ≤ t ∧ y ∈ T := hl (t, y) List.mem_cons_self
    have hL : ∀ o ∈ L, 0 ≤ o.1 := fun o ho =>
      (hl (o.1, o.2.1) (List.mem_cons_of_mem _ (List.mem_map_of_mem (f := fun o : ℝ × {x // x ∈ T} => (o.1, o.2.1)) ho))).1
    let a : Member env n nT cfg procs T := ⟨s, h, ht⟩
    obtain ⟨σ, hσ, ha⟩ := exists_section hF a
    have hW : ∀ i k : {x // x ∈ T}, 0 ≤ W i.1 k.1 := by
      intro i k
      obtain ⟨s, hs, ht⟩ := hF.reached i.1 i.2
      rw [← ht, ← hF.rates s hs (by rw [ht]; exact i.2) k.1 k.2]
      exact flow_nonneg hs hr _
    have hv := (Chain.Jumps.volume_visits (jumps_classes hF hr hb hf) hσ hW h0 ⟨y, hy⟩ hL).2.2 (typesOf a)
    have hc : chanceAll env s (sums 0 ((t, y) :: bare L)) =
        ⨆ N, volume ((jumps hF hr hb hf).Visits typesOf t ⟨y, hy⟩ L N (σ (typesOf a))) := by
      unfold chanceAll
      refine iSup_congr fun N => ?_
      congr 1
      ext w
      rw [ha, jumps_visits hF hr hb hf N a h0 ⟨y, hy⟩ hL w, ← sums_bare]
      rfl
    rw [hc, hv]
    have hA : ∀ y : {x // x ∈ T}, (fun s : Member env n nT cfg procs T => typesOf s = y) = fun s => s.1.ms.cfg.types = y.1 := by
      intro y
      funext s
      exact propext Subtype.ext_iff
    -- the states do not matter
    have hstate : ∀ (i y : {x // x ∈ T}) (t : ℝ), 0 ≤ t →
        ((jumps hF hr hb hf).chance (fun s => typesOf s = y) (σ i) t).toReal = (chance env (st i.1) y.1 t).toReal := by
      intro i y t h0
      rw [hA, ← jumps_chance hF hr hb hf]
      congr 1
      exact C64_types hF hr hb hf (σ i).2.1 (hst i.1 i.2) (σ i).2.2
        ((congrArg Subtype.val (hσ i)).trans (htypes i.1 i.2).symm) _ h0
    have key : ∀ (l : List (ℝ × {x // x ∈ T})), (∀ o ∈ l, 0 ≤ o.1) → ∀ i : {x // x ∈ T},
        Chain.Jumps.along (fun i j t => ((jumps hF hr hb hf).chance (fun s => typesOf s = j) (σ i) t).toReal) i l =
          courseChance env st i.1 (bare l) := by
      intro l
      induction l with
      | nil => exact fun _ _ => rfl
      | cons o l ih =>
        intro hl i
        have := ih (fun o ho => hl o (List.mem_cons_of_mem _ ho)) o.2
        show _ * Chain.Jumps.along _ o.2 l = (chance env (st i.1) o.2.1 o.1).toReal * courseChance env st o.2.1 (bare l)
        rw [this]
        exact congrArg (· * courseChance env st o.2.1 (bare l)) (hstate i o.2 o.1 (hl o List.mem_cons_self))
    exact key ((t, ⟨y, hy⟩) :: L) (List.forall_mem_cons.2 ⟨h0, hL⟩) (typesOf a)

/-- **C72** What comes later does not depend on what came before: the probability of a course and then another is the one of the
first, times the one of the second from any state with the types the first ends with. -/
theorem C72_later (h : GoodRun env n nT negLog cfg procs s) (ht : s.ms.cfg.types ∈ T) {c c' : List (ℝ × List Bucket)}
    (hc : ∀ o ∈ c, 0 ≤ o.1 ∧ o.2 ∈ T) (hc' : ∀ o ∈ c', 0 ≤ o.1 ∧ o.2 ∈ T) (h' : GoodRun env n nT negLog cfg procs s')
    (he : s'.ms.cfg.types = courseEnd s.ms.cfg.types c) :
    (chanceAll env s (sums 0 (c ++ c'))).toReal = (chanceAll env s (sums 0 c)).toReal * (chanceAll env s' (sums 0 c')).toReal := by
  have hend : ∀ (c : List (ℝ × List Bucket)) (x : List Bucket), x ∈ T → (∀ o ∈ c, 0 ≤ o.1 ∧ o.2 ∈ T) → courseEnd x c ∈ T := by
    intro c
    induction c with
    | nil => exact fun x hx _ => hx
    | cons o c ih => exact fun x _ hc => ih o.2 (hc o List.mem_cons_self).2 fun o ho => hc o (List.mem_cons_of_mem _ ho)
  have happ : ∀ (c : List (ℝ × List Bucket)) (x : List Bucket),
      courseChance env st x (c ++ c') = courseChance env st x c * courseChance env st (courseEnd x c) c' := by
    intro c
    induction c with
    | nil => exact fun x => (one_mul _).symm
    | cons o c ih =>
      intro x
      show _ * courseChance env st o.2 (c ++ c') = _ * courseChance env st o.2 c * courseChance env st (courseEnd o.2 c) c'
      rw [ih, mul_assoc]
  rw [C72_times hF hr hb hf hst htypes h ht hc, C72_times hF hr hb hf hst htypes h ht (l := c ++ c') fun o ho =>
      (List.mem_append.1 ho).elim (hc o) (hc' o),
    C72_times hF hr hb hf hst htypes h' (by rw [he]; exact hend c _ ht hc) hc', happ, he]

/-- **C72** With detailed balance a course and the same course backwards have the same probability, if the first types are drawn
with the weights. -/
theorem C72_backwards {w : List Bucket → ℝ} (hw : ∀ x ∈ T, ∀ y ∈ T, w x * W x y = w y * W y x) {x : List Bucket} (hx : x ∈ T)
    {c : List (ℝ × List Bucket)} (hc : ∀ o ∈ c, 0 ≤ o.1 ∧ o.2 ∈ T) :
    w x * (chanceAll env (st x) (sums 0 c)).toReal =
      w (courseEnd x c) * (chanceAll env (st (courseEnd x c)) (sums 0 (courseBack x c []))).toReal := by
  have hback : ∀ (c : List (ℝ × List Bucket)) (x : List Bucket) (acc : List (ℝ × List Bucket)), x ∈ T →
      (∀ o ∈ c, 0 ≤ o.1 ∧ o.2 ∈ T) → (∀ o ∈ acc, 0 ≤ o.1 ∧ o.2 ∈ T) →
      courseEnd x c ∈ T ∧ ∀ o ∈ courseBack x c acc, 0 ≤ o.1 ∧ o.2 ∈ T := by
    intro c
    induction c with
    | nil => exact fun x acc hx _ ha => ⟨hx, ha⟩
    | cons o c ih =>
      intro x acc hx hc ha
      have ho := hc o List.mem_cons_self
      exact ih o.2 ((o.1, x) :: acc) ho.2 (fun o ho => hc o (List.mem_cons_of_mem _ ho))
        (List.forall_mem_cons.2 ⟨⟨ho.1, hx⟩, ha⟩)
  obtain ⟨h1, h2⟩ := hback c x [] hx hc fun o ho => absurd ho List.not_mem_nil
  rw [C72_times hF hr hb hf hst htypes (hst x hx) (by rw [htypes x hx]; exact hx) hc,
    C72_times hF hr hb hf hst htypes (hst _ h1) (by rw [htypes _ h1]; exact h1) h2, htypes x hx, htypes _ h1]
  exact C71_backwards hF hr hb hf hw hst htypes hx hc

end

/-- **C72** Models with constant rates: the types at a time decide what comes later. For a state `s`, types at a time, and types at
later times, the probability is the product of that for the first time and that from a state `s'` with the types of the first
time. -/
theorem C72_constant (hr : PositiveRates env procs) {M : Nat} (hb : Bounded M cfg procs) (hf : FewEnough M procs)
    (hc : ∀ p ∈ procs, p.custom = false) (h : GoodRun env n nT negLog cfg procs s) (h' : GoodRun env n nT negLog cfg procs s') {t : ℝ}
    (h0 : 0 ≤ t) {c : List (ℝ × List Bucket)}
    (hl : ∀ o ∈ c, 0 ≤ o.1 ∧ ∃ a, GoodRun env n nT negLog cfg procs a ∧ a.ms.cfg.types = o.2) :
    (chanceAll env s (sums 0 ((t, s'.ms.cfg.types) :: c))).toReal =
      (chance env s s'.ms.cfg.types t).toReal * (chanceAll env s' (sums 0 c)).toReal := by
  obtain ⟨T, W, hF, hT⟩ := C64_family (n := n) (nT := nT) hr hb hf hc
  have hex : ∀ x : List Bucket, ∃ a, x ∈ T → GoodRun env n nT negLog cfg procs a ∧ a.ms.cfg.types = x := by
    intro x
    by_cases hx : x ∈ T
    · obtain ⟨a, h1, h2⟩ := hF.reached x hx
      exact ⟨a, fun _ => ⟨h1, h2⟩⟩
    · exact ⟨s, fun h => absurd h hx⟩
  choose st hst using hex
  have hc' : ∀ o ∈ c, 0 ≤ o.1 ∧ o.2 ∈ T := by
    intro o ho
    obtain ⟨g0, a, g1, g2⟩ := hl o ho
    exact ⟨g0, g2 ▸ (hT a g1).1⟩
  have hs' := (hT s' h').1
  rw [C72_times hF hr hb hf (fun x hx => (hst x hx).1) (fun x hx => (hst x hx).2) h (hT s h).1
      (l := (t, s'.ms.cfg.types) :: c) (List.forall_mem_cons.2 ⟨⟨h0, hs'⟩, hc'⟩),
    C72_times hF hr hb hf (fun x hx => (hst x hx).1) (fun x hx => (hst x hx).2) h' hs' hc']
  show (chance env (st s.ms.cfg.types) _ t).toReal * _ = _
  have hx := hst _ (hT s h).1
  rw [C64_types hF hr hb hf hx.1 h (by rw [hx.2]; exact (hT s h).1) hx.2 _ h0]

/-- A site that turns from `A` to `B` with rate 2 and back with rate 3, and has `A` at the start. The probability that it has `A`
after a time `t` and again a time `u` later. -/
example : ∃ s, GoodRun Sample.oneEnv 1 3 negLog Sample.oneSite Sample.toAndFro s ∧ s.ms.cfg.types = [[0, 1, 0]] ∧
    ∀ t u : ℝ, 0 ≤ t → 0 ≤ u → (chanceAll Sample.oneEnv s [(t, [[0, 1, 0]]), (t + u, [[0, 1, 0]])]).toReal =
      (3 / 5 + 2 / 5 * Real.exp (-(5 * t))) * (3 / 5 + 2 / 5 * Real.exp (-(5 * u))) := by
  obtain ⟨hb, hf⟩ := bounded_one Sample.oneSite_one Sample.toAndFro_balanced
  obtain ⟨s, h, ht, hA⟩ := toAndFro_chance
  obtain ⟨sB, hB, tB⟩ := toAndFro_family.reached [[0, 0, 1]] (by simp)
  have hBA : ([[0, 0, 1]] : List Bucket) ≠ [[0, 1, 0]] := by decide
  let st : List Bucket → Sim ℝ := fun x => if x = [[0, 1, 0]] then s else sB
  have hsA : st [[0, 1, 0]] = s := if_pos rfl
  have hsB : st [[0, 0, 1]] = sB := if_neg hBA
  have hst : ∀ x ∈ ({[[0, 1, 0]], [[0, 0, 1]]} : Finset (List Bucket)),
      GoodRun Sample.oneEnv 1 3 negLog Sample.oneSite Sample.toAndFro (st x) ∧ (st x).ms.cfg.types = x := by
    intro x hx
    simp only [Finset.mem_insert, Finset.mem_singleton] at hx
    rcases hx with rfl | rfl
    · rw [hsA]; exact ⟨h, ht⟩
    · rw [hsB]; exact ⟨hB, tB⟩
  refine ⟨s, h, ht, fun t u h0 h1 => ?_⟩
  have := C72_times toAndFro_family Sample.toAndFro_positive hb hf (fun x hx => (hst x hx).1) (fun x hx => (hst x hx).2) h
    (by rw [ht]; simp) (l := [(t, [[0, 1, 0]]), (u, [[0, 1, 0]])]) (by simp [h0, h1])
  simp only [sums, zero_add] at this
  rw [this, ht]
  simp only [courseChance, hsA, hA t h0, hA u h1, mul_one]

end KMC
