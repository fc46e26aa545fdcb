import Verif.Lemmas.OnGrid
import Verif.Lemmas.RoundedSelect

/-!
# Property C55: rates in double precision

The other theorems on runs are about exact arithmetic. The theorems here are about runs in which the result of every
addition, subtraction, multiplication and division of rates and times is rounded.
-/

set_option linter.unusedSectionVars false

namespace KMC

open LatticeModel

/-- The state `s` is reached from a well formed input by a run with rounding. -/
structure RoundedRun (fl : ℚ → ℚ) (env : Env ℚ) (n nT : Nat) (negLog : ℚ → Option ℚ) (cfg : Config ℚ)
    (procs : List (Proc ℚ)) (s : Sim ℚ) : Prop where
  input : WellFormed env n nT cfg procs
  custom : env.useCustomRates = true → CustomRatesOk env n nT cfg procs
  reached : ∃ s0 ds, Rounded.init fl env cfg procs = .ok s0 ∧ Rounded.run fl env negLog ds s0 = .ok s

variable {fl : ℚ → ℚ} {env : Env ℚ} {n nT : Nat} {negLog : ℚ → Option ℚ} {cfg : Config ℚ} {procs : List (Proc ℚ)}
variable {s : Sim ℚ}

/-- C55: when nothing is rounded, the runs with rounding are the runs of the other theorems. -/
theorem C55_without_rounding (env : Env ℚ) (negLog : ℚ → Option ℚ) (cfg : Config ℚ) (procs : List (Proc ℚ))
    (ds : List (Draws ℚ)) (s : Sim ℚ) :
    Rounded.init id env cfg procs = LatticeModel.init env cfg procs ∧
    Rounded.run id env negLog ds s = LatticeModel.run env negLog ds s :=
  ⟨Rounded.init_id env cfg procs, Rounded.run_id env negLog ds s⟩

theorem RoundedRun.follow (h : RoundedRun fl env n nT negLog cfg procs s) (hr : PositiveRates env procs)
    (hl : ∃ u, 0 < u ∧ u < 1 ∧ negLog u ≠ none) :
    ∃ t, GoodRun env n nT negLog cfg procs t ∧ s.ms.faded = t.ms.faded := by
  obtain ⟨hin, hcu, s0, ds, h0, h1⟩ := h
  unfold Rounded.init at h0
  rw [bind_ok] at h0
  obtain ⟨ms, h2, h0⟩ := h0
  cases h0
  obtain ⟨mt, h3, h4⟩ := map_ok_of (Rounded.initialMatching_faded env cfg procs) h2
  have ht : GoodRun env n nT negLog cfg procs ⟨mt, Interactions.probabilityTable mt.procs, 0⟩ := by
    refine ⟨hin, hcu, ⟨mt, Interactions.probabilityTable mt.procs, 0⟩, [], ?_, rfl⟩
    unfold LatticeModel.init
    rw [h3, ok_bind]
    rfl
  obtain ⟨ds', t', -, -, h7, h8⟩ := Rounded.run_follow hr hl ds ht h4 h1
  exact ⟨t', h7, h8⟩

/-- C55: with positive rates, rounding does not lead anywhere else. Whatever the rounding, every state of a run with
rounding is also reached, with other random numbers, by a run without, up to the stored total rates, the tables made
from them and the time: the configuration is the same, and the processes list the same sites with the same rates. -/
theorem C55_followed (h : RoundedRun fl env n nT negLog cfg procs s) (hr : PositiveRates env procs)
    (hl : ∃ u, 0 < u ∧ u < 1 ∧ negLog u ≠ none) :
    ∃ t, GoodRun env n nT negLog cfg procs t ∧ t.ms.cfg = s.ms.cfg ∧ t.ms.inverse = s.ms.inverse ∧
      t.ms.rates = s.ms.rates ∧
      t.ms.procs.map (fun p => { p with totalRate := 0, rateTable := [] }) =
        s.ms.procs.map (fun p => { p with totalRate := 0, rateTable := [] }) := by
  obtain ⟨t, h1, h2⟩ := h.follow hr hl
  exact ⟨t, h1, (congrArg MState.cfg h2 :).symm, (congrArg MState.inverse h2 :).symm,
    (congrArg MState.rates h2 :).symm, (congrArg MState.procs h2 :).symm⟩

/-- C55: with positive rates, in every state of a run with rounding a site is listed for a process exactly when it is a
site of the lattice, on a basis position of the process, and the pattern of the process matches its surroundings. -/
theorem C55_available (h : RoundedRun fl env n nT negLog cfg procs s) (hr : PositiveRates env procs)
    (hl : ∃ u, 0 < u ∧ u < 1 ∧ negLog u ≠ none) {j : Nat} {p : Proc ℚ} (hp : s.ms.procs[j]? = some p) (site : Nat) :
    site ∈ p.sites ↔ site < n ∧ env.L.basisSite site ∈ p.basisSites ∧
      ∃ ml, Surroundings env procs s.ms.cfg site = .ok ml ∧ whateverMatch p.matchList ml = .ok true := by
  obtain ⟨t, h1, h2⟩ := h.follow hr hl
  obtain ⟨q, hq, hpq⟩ := faded_get (MState.faded_procs h2) hp
  have e1 : p.sites = q.sites := (congrArg Proc.sites hpq :)
  have e2 : p.basisSites = q.basisSites := (congrArg Proc.basisSites hpq :)
  have e3 : p.matchList = q.matchList := (congrArg Proc.matchList hpq :)
  rw [e1, e2, e3, MState.faded_cfg h2]
  exact C24_available h1 hq site

/-- What the stored total rates must be for the selection to work: not negative, and zero where no site is listed. -/
structure SoundTotals (procs : List (Proc ℚ)) : Prop where
  nonneg : ∀ p ∈ procs, 0 ≤ p.totalRate
  empty : ∀ p ∈ procs, p.sites = [] → p.totalRate = 0
  some : ∃ p ∈ procs, 0 < p.totalRate

/-- C55 (partial: the stored total rates must be sound; `C55_ghost` and `C55_backwards` show that they need not be).
Then some listed event is selected, whatever the random numbers and however ties are broken. -/
theorem C55_select_partial (hfl : Rounding fl) (hp : SoundTotals procs)
    (hm : ∀ p ∈ procs, p.siteMult.length = p.sites.length ∧ (p.custom = true → p.siteRates.length = p.sites.length))
    (hw : ∀ p ∈ procs, ∀ w ∈ p.weights, 0 ≤ w) {u1 u2 : ℚ} (h1 : 0 < u1) (h1' : u1 ≤ 1) (h2 : u2 ≤ 1) :
    ∃ r p, Rounded.select fl procs (Rounded.probabilityTable fl procs) u1 u2 = .ok r ∧ procs[r.1]? = some p ∧
      r.2.1 ∈ p.sites := by
  obtain ⟨hnn, hem, p0, hp0, hpos⟩ := hp
  have hnn' : ∀ t ∈ procs.map (·.totalRate), 0 ≤ t := by
    intro t ht
    obtain ⟨p, hp, rfl⟩ := List.mem_map.1 ht
    exact hnn p hp
  have hne : Rounded.prefixSums fl 0 (procs.map (·.totalRate)) ≠ [] := by
    rw [← List.length_pos_iff, Rounded.length_prefixSums, List.length_map]
    exact List.length_pos_of_mem hp0
  obtain ⟨last, hl⟩ := Rounded.exists_getLast hne
  have hl0 := Rounded.getLast_pos hfl hnn' (List.mem_map_of_mem (f := (·.totalRate)) hp0) hpos isDouble_zero le_rfl hl
  have hsort := Rounded.prefixSums_sorted (a := 0) hfl hnn'
  have hle : fl (u1 * last) ≤ last :=
    hfl.ge (Rounded.prefixSums_double hfl _ _ _ (List.mem_of_getLast? hl)) (u_mul_le h1' hl0.le)
  have hr0 : 0 < fl (u1 * last) := hfl.pos (mul_pos h1 hl0)
  obtain ⟨x, hx, hrx, hb⟩ := Rounded.lowerBound_found hsort hl hle
  set i := lowerBound (fun x => decide (x < fl (u1 * last))) (Rounded.prefixSums fl 0 (procs.map (·.totalRate))) with hi
  obtain ⟨t, ht, ht0⟩ := Rounded.prefixSums_term hfl isDouble_zero hr0 hx hrx hb
  rw [List.getElem?_map, Option.map_eq_some_iff] at ht
  obtain ⟨p, hpi, rfl⟩ := ht
  have hpm := List.mem_of_getElem? hpi
  have hsites : p.sites ≠ [] := fun h => ht0 (hem p hpm h)
  obtain ⟨site, hs, hsm⟩ := Rounded.pickSite_found hfl (hm p hpm).1 (hm p hpm).2 (hw p hpm) hsites h2
  unfold Rounded.select Rounded.pickProcess
  rw [Rounded.pickProcessIndex_eq hl, ← hi, ok_bind, rd_of_getElem? hpi, ok_bind,
    Rounded.updateRateTable_eq (hm p hpm).1 (hm p hpm).2, ok_bind,
    wr_of_lt (List.getElem?_eq_some_iff.1 hpi).1, ok_bind, pure_ok, ok_bind]
  dsimp only
  rw [hs, ok_bind]
  exact ⟨_, p, rfl, hpi, hsm⟩

theorem Matcher.OkOr.of_map {α β γ : Type} {x : M α} {y : M β} {f : α → γ} {g : β → γ} (h : x.map f = y.map g)
    (hy : Matcher.OkOr y) : Matcher.OkOr x := by
  rcases hy with ⟨b, rfl⟩ | rfl
  · cases x with
    | ok a => exact Or.inl ⟨a, rfl⟩
    | error e => cases h
  · cases x with
    | ok a => cases h
    | error e => cases h; exact Or.inr rfl

theorem RoundedRun.table (h : RoundedRun fl env n nT negLog cfg procs s) :
    s.table = Rounded.probabilityTable fl s.ms.procs := by
  obtain ⟨-, -, s0, ds, h0, h1⟩ := h
  unfold Rounded.init at h0
  rw [bind_ok] at h0
  obtain ⟨ms, -, h0⟩ := h0
  cases h0
  have key : ∀ (ds : List (Draws ℚ)) (s : Sim ℚ), s.table = Rounded.probabilityTable fl s.ms.procs →
      ∀ s', Rounded.run fl env negLog ds s = .ok s' → s'.table = Rounded.probabilityTable fl s'.ms.procs := by
    intro ds
    induction ds with
    | nil => intro s hs s' h; cases h; exact hs
    | cons d ds ih =>
      intro s hs s' h
      unfold Rounded.run at h
      rw [loopM_cons, bind_ok] at h
      obtain ⟨s1, h3, h4⟩ := h
      refine ih s1 ?_ s' h4
      unfold Rounded.step at h3
      rw [bind_ok] at h3
      obtain ⟨s2, -, h3⟩ := h3
      unfold Rounded.singleStep at h3
      rw [bind_ok] at h3
      obtain ⟨e, -, h3⟩ := h3
      rw [bind_ok] at h3
      obtain ⟨ms1, -, h3⟩ := h3
      rw [bind_ok] at h3
      obtain ⟨ms2, -, h3⟩ := h3
      cases h3
      rfl
  exact key ds _ rfl s h1

/-- C55 (partial: the stored total rates must be sound). In a state of a run with positive rates, the next event takes
place, whatever the random numbers, unless a multiplicity overflows (C14). -/
theorem C55_step_partial (hfl : Rounding fl) (h : RoundedRun fl env n nT negLog cfg procs s)
    (hr : PositiveRates env procs) (hl : ∃ u, 0 < u ∧ u < 1 ∧ negLog u ≠ none) (hs : SoundTotals s.ms.procs) {u1 u2 : ℚ}
    (h1 : 0 < u1) (h1' : u1 < 1) (h2' : u2 < 1) :
    (∃ s', Rounded.singleStep fl env s u1 u2 = .ok s') ∨ Rounded.singleStep fl env s u1 u2 = .error .overflow := by
  obtain ⟨t, ht, hst⟩ := h.follow hr hl
  have hback : ∀ p ∈ s.ms.procs, ∃ q ∈ t.ms.procs, p.faded = q.faded := by
    intro p hp
    obtain ⟨j, hj⟩ := List.mem_iff_getElem?.1 hp
    obtain ⟨q, hq, hpq⟩ := faded_get (MState.faded_procs hst) hj
    exact ⟨q, List.mem_of_getElem? hq, hpq⟩
  obtain ⟨e, p, hsel, hp, hsite⟩ := C55_select_partial (u1 := u1) (u2 := u2) hfl hs (by
      intro p hp
      obtain ⟨q, hq, hpq⟩ := hback p hp
      have e1 : p.sites = q.sites := (congrArg Proc.sites hpq :)
      have e2 : p.siteMult = q.siteMult := (congrArg Proc.siteMult hpq :)
      have e3 : p.siteRates = q.siteRates := (congrArg Proc.siteRates hpq :)
      have e4 : p.custom = q.custom := (congrArg Proc.custom hpq :)
      rw [e1, e2, e3, e4]
      have := (C25_totals ht).1 q hq
      exact ⟨this.2.1, this.2.2.1⟩) (by
      intro p hp w hw
      obtain ⟨q, hq, hpq⟩ := hback p hp
      rw [← Proc.faded_weights, hpq, Proc.faded_weights] at hw
      exact (weights_pos ht hr q hq w hw).le) h1 h1'.le h2'.le
  rw [← h.table] at hsel
  obtain ⟨-, -, -, hps⟩ := Rounded.select_ok hsel
  obtain ⟨q, hq, hpq⟩ := faded_get (MState.faded_procs hst) hp
  have hsite' : e.2.1 ∈ q.sites := by
    have : p.sites = q.sites := (congrArg Proc.sites hpq :)
    rw [← this]
    exact hsite
  obtain ⟨v1, v2, procs', -, -, -, -, hsel2⟩ := Rounded.exists_select ht hr hq hsite'
  have hsel3 := hsel2
  rw [← Rounded.select_id] at hsel3
  obtain ⟨-, -, -, hps'⟩ := Rounded.select_ok hsel3
  have hf : ({ s.ms with procs := e.2.2 } : MState ℚ).faded = ({ t.ms with procs := procs' } : MState ℚ).faded := by
    have hp2 := MState.faded_procs hst
    have g1 : s.ms.cfg = t.ms.cfg := MState.faded_cfg hst
    have g2 : s.ms.inverse = t.ms.inverse := (congrArg MState.inverse hst :)
    have g3 : s.ms.rates = t.ms.rates := (congrArg MState.rates hst :)
    unfold MState.faded
    dsimp only at hps' ⊢
    rw [hps, hps', hp2, g1, g2, g3]
  obtain ⟨cfg1, procs1, hprep, hok, ⟨hI, -⟩, -⟩ := ht.inv
  have hgood := World.singleStep_okOr (W := World.of env n nT (Interactions.maxRange procs) cfg1 procs1) hok hI hsel2
  have hgood : Matcher.OkOr (LatticeModel.singleStep env t v1 v2) := hgood
  refine Matcher.OkOr.of_map (f := fun s' : Sim ℚ => s'.ms.faded) (g := fun s' : Sim ℚ => s'.ms.faded) ?_ hgood
  unfold Rounded.singleStep LatticeModel.singleStep
  rw [hsel, hsel2, ok_bind, ok_bind]
  refine bind_agree (Rounded.performAt_faded hf e.1 e.2.1) fun a b hab => ?_
  refine bind_agree (Rounded.rematch_faded env hab e.1) fun a' b' hab' => ?_
  exact congrArg Except.ok hab'

/-! ### Rates on a common grid -/

theorem probabilityLoop_exact (hfl : Rounding fl) {e : ℤ} {C : Nat} {ps : List (Proc ℚ)}
    (hp : ∀ p ∈ ps, OnGrid e C p.totalRate) {D : Nat} {a : ℚ} (ha : OnGrid e D a) (hB : D + ps.length * C ≤ 2 ^ 53) :
    Rounded.probabilityLoop fl a ps = Interactions.probabilityLoop a ps := by
  induction ps generalizing a D with
  | nil => rfl
  | cons p ps ih =>
    have h1 : OnGrid e (D + C) (a + p.totalRate) := ha.add (hp p (by simp))
    have hB' : D + C + ps.length * C ≤ 2 ^ 53 := by
      rw [List.length_cons, Nat.succ_mul] at hB
      omega
    have h2 : fl (a + p.totalRate) = a + p.totalRate := h1.self hfl (by omega)
    unfold Rounded.probabilityLoop Interactions.probabilityLoop
    rw [add_comm p.totalRate a, h2, ih (fun q hq => hp q (by simp [hq])) h1 hB']

/-- C55 (partial: all rates must be multiples of one power of two, `2 ^ e`, of at most `B` units, with `n * B` at most
`2 ^ 53` for `n` sites; `C55_ghost` shows that this is needed). Then in every state of a run with rounding the stored
total rate of each process is the sum of the rates of its listed sites. If moreover `2 ^ 53` is enough for all
processes together, the running table is exact as well. -/
theorem C55_exact_partial (hfl : Rounding fl) (h : RoundedRun fl env n nT negLog cfg procs s) {e : ℤ} {B : Nat}
    (hg : Matcher.RatesOnGrid e B env procs) (hB : n * B ≤ 2 ^ 53) :
    (∀ p ∈ s.ms.procs, p.Consistent) ∧
    (procs.length * (n * B) ≤ 2 ^ 53 → s.table = Interactions.probabilityTable s.ms.procs) := by
  obtain ⟨s0, ds, h0, h1⟩ := h.reached
  obtain ⟨W, hok, hgr, hn, hlen, ⟨A, hI⟩, htab⟩ := Rounded.reached_inv hfl h.input h.custom hg hB h0 h1
  have hrep : ∀ p ∈ s.ms.procs, p.Consistent ∧ OnGrid e (n * B) p.totalRate := by
    intro p hp
    obtain ⟨j, hj⟩ := List.mem_iff_getElem?.1 hp
    have hr := hI.book.rep j p hj
    refine ⟨hr.consistent, ?_⟩
    rw [← hn]
    exact hr.total_onGrid (hgr.content hok hI j) ((hgr.procs hI.toPreA).own p hp)
  refine ⟨fun p hp => (hrep p hp).1, fun hall => ?_⟩
  rw [htab]
  unfold Rounded.probabilityTable Interactions.probabilityTable
  refine probabilityLoop_exact hfl (fun p hp => (hrep p hp).2) (OnGrid.zero (B := 0)) ?_
  have : s.ms.procs.length = procs.length := by
    rw [← hlen, ← hI.procs, List.length_map]
  rw [this, Nat.zero_add]
  exact hall

/-- C55 (partial: rates on a common grid). Then the stored total rates are sound as long as a site is listed, so that
the next event takes place unless a multiplicity overflows. -/
theorem C55_grid_step_partial (hfl : Rounding fl) (h : RoundedRun fl env n nT negLog cfg procs s)
    (hr : PositiveRates env procs) (hl : ∃ u, 0 < u ∧ u < 1 ∧ negLog u ≠ none) {e : ℤ} {B : Nat}
    (hg : Matcher.RatesOnGrid e B env procs) (hB : n * B ≤ 2 ^ 53) (hav : ∃ p ∈ s.ms.procs, p.sites ≠ []) :
    SoundTotals s.ms.procs ∧ ∀ u1 u2 : ℚ, 0 < u1 → u1 < 1 → u2 < 1 →
      (∃ s', Rounded.singleStep fl env s u1 u2 = .ok s') ∨ Rounded.singleStep fl env s u1 u2 = .error .overflow := by
  obtain ⟨t, ht, hst⟩ := h.follow hr hl
  have hc := (C55_exact_partial hfl h hg hB).1
  have hw : ∀ p ∈ s.ms.procs, ∀ w ∈ p.weights, 0 < w := by
    intro p hp w hw
    obtain ⟨j, hj⟩ := List.mem_iff_getElem?.1 hp
    obtain ⟨q, hq, hpq⟩ := faded_get (MState.faded_procs hst) hj
    rw [← Proc.faded_weights, hpq, Proc.faded_weights] at hw
    exact weights_pos ht hr q (List.mem_of_getElem? hq) w hw
  have hs : SoundTotals s.ms.procs := by
    refine ⟨?_, ?_, ?_⟩
    · intro p hp
      rw [(hc p hp).total]
      exact List.sum_nonneg fun w hw' => (hw p hp w hw').le
    · intro p hp h0
      have := (hc p hp).length_weights
      rw [h0, List.length_nil, List.length_eq_zero_iff] at this
      rw [(hc p hp).total, this, List.sum_nil]
    · obtain ⟨p, hp, hne⟩ := hav
      refine ⟨p, hp, ?_⟩
      rw [(hc p hp).total]
      have hwne : p.weights ≠ [] := by
        rw [← List.length_pos_iff, (hc p hp).length_weights, List.length_pos_iff]
        exact hne
      exact List.sum_pos _ (hw p hp) hwne
  exact ⟨hs, fun u1 u2 h1 h1' h2' => C55_step_partial hfl h hr hl hs h1 h1' h2'⟩

/-! ### Drift -/

/-- A record of available sites after `k` additions and removals with rounding, of rates that are doubles, starting
from an empty one; `T` bounds the sum of the listed rates on the way. -/
inductive Edited (fl : ℚ → ℚ) (T : ℚ) : Nat → Proc ℚ → Prop
  | start {p : Proc ℚ} : IsDouble p.rate → 0 ≤ p.rate → p.sites = [] → p.siteMult = [] → p.siteRates = [] →
      p.totalRate = 0 → Edited fl T 0 p
  | add {k : Nat} {p : Proc ℚ} {site : Nat} {rate : ℚ} : Edited fl T k p → IsDouble rate → 0 ≤ rate →
      (Rounded.addSite fl p site rate 1).weights.sum ≤ T → Edited fl T (k + 1) (Rounded.addSite fl p site rate 1)
  | remove {k : Nat} {p p' : Proc ℚ} {site : Nat} : Edited fl T k p → Rounded.removeSite fl p site = .ok p' →
      Edited fl T (k + 1) p'

/-- What stays as it should be. -/
structure Edited.Sane (T : ℚ) (p : Proc ℚ) : Prop where
  rate : IsDouble p.rate
  rate0 : 0 ≤ p.rate
  ones : ∀ m ∈ p.siteMult, m = 1
  mults : p.siteMult.length = p.sites.length
  rates : p.custom = true → p.siteRates.length = p.sites.length
  each : ∀ r ∈ p.siteRates, IsDouble r ∧ 0 ≤ r
  sum : p.weights.sum ≤ T

theorem Edited.Sane.weights {T : ℚ} {p : Proc ℚ} (h : Edited.Sane T p) : ∀ w ∈ p.weights, 0 ≤ w := by
  intro w hw
  unfold Proc.weights at hw
  split at hw
  · rw [List.mem_iff_getElem] at hw
    obtain ⟨k, hk, rfl⟩ := hw
    rw [List.getElem_zipWith, h.ones _ (List.getElem_mem _), mul_one]
    exact (h.each _ (List.getElem_mem _)).2
  · rw [List.mem_map] at hw
    obtain ⟨m, hm, rfl⟩ := hw
    rw [h.ones m hm, mul_one]
    exact h.rate0

theorem swapPop_split {α : Type _} {xs : List α} {i : Nat} {r : α × List α} (h : swapPop xs i = .ok r) :
    ∃ hi : i < xs.length, r.1 = xs[i] ∧ xs.Perm (r.1 :: r.2) ∧ r.2.length = xs.length - 1 ∧
      ∀ k, k < xs.length - 1 → r.2[k]? = xs[oldPos xs.length i k]? := by
  have hi : i < xs.length := by
    unfold swapPop at h
    split at h
    · rename_i h1 _; exact (List.getElem?_eq_some_iff.1 h1).1
    · cases h
  obtain ⟨ys, h1, h2, h3⟩ := swapPop_ok' hi
  have hp := swapPop_perm hi h1
  rw [h] at h1
  cases h1
  exact ⟨hi, rfl, hp, h2, h3⟩

theorem Edited.addSite_sane {T : ℚ} {p : Proc ℚ} (h : Edited.Sane T p) {site : Nat} {rate : ℚ} (hr : IsDouble rate)
    (hr0 : 0 ≤ rate) (hT : (Rounded.addSite fl p site rate 1).weights.sum ≤ T) :
    Edited.Sane T (Rounded.addSite fl p site rate 1) ∧
    ∃ r, IsDouble r ∧ 0 ≤ r ∧ (Rounded.addSite fl p site rate 1).weights.sum = p.weights.sum + r ∧
      (Rounded.addSite fl p site rate 1).totalRate = fl (p.totalRate + fl r) := by
  have hones : ∀ m ∈ p.siteMult ++ [(1 : ℚ)], m = 1 := by
    intro m hm
    rcases List.mem_append.1 hm with h' | h'
    · exact h.ones m h'
    · simpa using h'
  cases hc : p.custom with
  | true =>
    have he : Rounded.addSite fl p site rate 1 = { p with sites := p.sites ++ [site], siteMult := p.siteMult ++ [1], siteRates := p.siteRates ++ [rate], totalRate := fl (p.totalRate + fl (1 * rate)) } := by
      unfold Rounded.addSite; rw [if_pos hc]
    have hw : (Rounded.addSite fl p site rate 1).weights.sum = p.weights.sum + rate := by
      rw [he]
      unfold Proc.weights
      dsimp only
      rw [if_pos hc, if_pos hc, List.zipWith_append (by rw [h.rates hc, h.mults]), List.sum_append]
      simp
    refine ⟨⟨?_, ?_, ?_, ?_, ?_, ?_, hT⟩, rate, hr, hr0, hw, ?_⟩
    · rw [he]; exact h.rate
    · rw [he]; exact h.rate0
    · rw [he]; exact hones
    · rw [he]; simp [h.mults]
    · rw [he]; intro _; simp [h.rates hc]
    · rw [he]
      intro r hm
      rcases List.mem_append.1 hm with h' | h'
      · exact h.each r h'
      · rw [List.mem_singleton] at h'; rw [h']; exact ⟨hr, hr0⟩
    · rw [he]; dsimp only; rw [one_mul]
  | false =>
    have he : Rounded.addSite fl p site rate 1 = { p with sites := p.sites ++ [site], siteMult := p.siteMult ++ [1], totalRate := fl (p.totalRate + fl (1 * p.rate)) } := by
      unfold Rounded.addSite; rw [if_neg (by simp [hc])]
    have hw : (Rounded.addSite fl p site rate 1).weights.sum = p.weights.sum + p.rate := by
      rw [he]
      unfold Proc.weights
      dsimp only
      rw [if_neg (by simp [hc]), if_neg (by simp [hc])]
      simp
    refine ⟨⟨?_, ?_, ?_, ?_, ?_, ?_, hT⟩, p.rate, h.rate, h.rate0, hw, ?_⟩
    · rw [he]; exact h.rate
    · rw [he]; exact h.rate0
    · rw [he]; exact hones
    · rw [he]; simp [h.mults]
    · rw [he]; intro h'; rw [hc] at h'; cases h'
    · rw [he]; exact h.each
    · rw [he]; dsimp only; rw [one_mul]

theorem Edited.removeSite_sane {T : ℚ} {p p' : Proc ℚ} (h : Edited.Sane T p) {site : Nat}
    (hrem : Rounded.removeSite fl p site = .ok p') :
    Edited.Sane T p' ∧ ∃ r, IsDouble r ∧ 0 ≤ r ∧ p'.weights.sum = p.weights.sum - r ∧
      p'.totalRate = fl (p.totalRate - fl r) := by
  have hwp := h.weights
  have hone : ∀ {ms : List ℚ} {m : ℚ}, p.siteMult.Perm (m :: ms) → m = 1 ∧ ∀ x ∈ ms, x = 1 := by
    intro ms m hp
    exact ⟨h.ones m (hp.mem_iff.2 (by simp)), fun x hx => h.ones x (hp.mem_iff.2 (by simp [hx]))⟩
  unfold Rounded.removeSite at hrem
  split at hrem
  · cases hrem
  · rename_i i hi
    split at hrem
    · rename_i hc
      rw [bind_ok] at hrem
      obtain ⟨a, ha, hrem⟩ := hrem
      rw [bind_ok] at hrem
      obtain ⟨b, hb, hrem⟩ := hrem
      rw [bind_ok] at hrem
      obtain ⟨c, hc', hrem⟩ := hrem
      cases hrem
      obtain ⟨-, -, -, la, -⟩ := swapPop_split ha
      obtain ⟨-, -, pb, lb, -⟩ := swapPop_split hb
      obtain ⟨-, -, pc, lc, -⟩ := swapPop_split hc'
      obtain ⟨c1, c2⟩ := hone pc
      have hb1 := h.each b.1 (pb.mem_iff.2 (by simp))
      have w1 : ∀ (rs ms : List ℚ), rs.length = ms.length → (∀ m ∈ ms, m = 1) →
          List.zipWith (fun r m : ℚ => r * m) rs ms = rs := by
        intro rs ms hl hm
        apply List.ext_getElem
        · simp [hl]
        · intro k h1 h2
          simp only [List.getElem_zipWith]
          rw [hm _ (List.getElem_mem _), mul_one]
      have lbc : b.2.length = c.2.length := by rw [lb, lc, h.rates hc, h.mults]
      have hsum : p.weights.sum = b.1 + b.2.sum := by
        unfold Proc.weights
        rw [if_pos hc, w1 _ _ (by rw [h.rates hc, h.mults]) h.ones, pb.sum_eq, List.sum_cons]
      have hsum' : ({ p with sites := a.2, siteRates := b.2, siteMult := c.2, totalRate := fl (p.totalRate - fl (b.1 * c.1)) } : Proc ℚ).weights.sum = b.2.sum := by
        unfold Proc.weights
        dsimp only
        rw [if_pos hc, w1 _ _ lbc c2]
      refine ⟨⟨h.rate, h.rate0, c2, ?_, fun _ => ?_, ?_, ?_⟩, b.1, hb1.1, hb1.2, ?_, ?_⟩
      · dsimp only; rw [lc, la, h.mults]
      · dsimp only; rw [lb, la, h.rates hc]
      · intro r hr; exact h.each r (pb.mem_iff.2 (by simp [show r ∈ b.2 from hr]))
      · have := h.sum
        have h0 := hb1.2
        rw [hsum] at this
        rw [hsum']
        linarith
      · rw [hsum, hsum']; ring
      · dsimp only; rw [c1, mul_one]
    · rename_i hc
      rw [bind_ok] at hrem
      obtain ⟨a, ha, hrem⟩ := hrem
      rw [bind_ok] at hrem
      obtain ⟨c, hc', hrem⟩ := hrem
      cases hrem
      obtain ⟨-, -, -, la, -⟩ := swapPop_split ha
      obtain ⟨-, -, pc, lc, -⟩ := swapPop_split hc'
      obtain ⟨c1, c2⟩ := hone pc
      have hsum : p.weights.sum = p.rate + (c.2.map fun m => p.rate * m).sum := by
        unfold Proc.weights
        rw [if_neg hc, (pc.map (fun m => p.rate * m)).sum_eq, List.map_cons, List.sum_cons, c1, mul_one]
      have hsum' : ({ p with sites := a.2, siteMult := c.2, totalRate := fl (p.totalRate - fl (c.1 * p.rate)) } : Proc ℚ).weights.sum = (c.2.map fun m => p.rate * m).sum := by
        unfold Proc.weights
        dsimp only
        rw [if_neg hc]
      refine ⟨⟨h.rate, h.rate0, c2, ?_, fun h' => absurd h' hc, h.each, ?_⟩, p.rate, h.rate, h.rate0, ?_, ?_⟩
      · dsimp only; rw [lc, la, h.mults]
      · have := h.sum
        have h0 := h.rate0
        rw [hsum] at this
        rw [hsum']
        linarith
      · rw [hsum, hsum']; ring
      · dsimp only; rw [c1, one_mul]

/-- C55 (partial: about one process, in the number of edits, not along a run). After `k` additions and removals of
sites the stored total rate of a process differs from the sum of the rates of its listed sites by at most
`T ((1 + 2 ^ -53) ^ k - 1)`, about `k T 2 ^ -53`, where `T` is the largest of the sums on the way. -/
theorem C55_drift_partial (hfl : Rounding fl) {T : ℚ} (hT : 0 ≤ T) {k : Nat} {p : Proc ℚ} (h : Edited fl T k p) :
    |p.totalRate - p.weights.sum| ≤ T * ((1 + 1 / 2 ^ 53) ^ k - 1) := by
  have step : ∀ (k : Nat) (t w w' x : ℚ), |t - w| ≤ T * ((1 + 1 / 2 ^ 53) ^ k - 1) → |w'| ≤ T →
      x - t = w' - w → |fl x - w'| ≤ T * ((1 + 1 / 2 ^ 53) ^ (k + 1) - 1) := by
    intro k t w w' x h1 h2 h3
    have h4 := hfl.error x
    have h5 : |x - w'| ≤ T * ((1 + 1 / 2 ^ 53) ^ k - 1) := by
      have : x - w' = t - w := by linarith
      rw [this]; exact h1
    have h6 : |x| ≤ T + T * ((1 + 1 / 2 ^ 53) ^ k - 1) := by
      have : x = w' + (x - w') := by ring
      rw [this]
      exact (abs_add_le _ _).trans (add_le_add h2 h5)
    have h7 : |fl x - w'| ≤ |fl x - x| + |x - w'| := by
      have : fl x - w' = (fl x - x) + (x - w') := by ring
      rw [this]
      exact abs_add_le _ _
    have h8 : |x| / 2 ^ 53 ≤ (T + T * ((1 + 1 / 2 ^ 53) ^ k - 1)) / 2 ^ 53 := by
      apply div_le_div_of_nonneg_right h6
      positivity
    refine h7.trans ((add_le_add (h4.trans h8) h5).trans (le_of_eq ?_))
    rw [pow_succ]
    ring
  have key : ∀ {k : Nat} {p : Proc ℚ}, Edited fl T k p → Edited.Sane T p ∧
      |p.totalRate - p.weights.sum| ≤ T * ((1 + 1 / 2 ^ 53) ^ k - 1) := by
    intro k p h
    induction h with
    | start h1 h2 h3 h4 h5 h6 =>
      rename_i p
      have hw : p.weights = [] := by
        unfold Proc.weights
        split
        · rw [h5]; rfl
        · rw [h4]; rfl
      refine ⟨⟨h1, h2, by rw [h4]; simp, by rw [h4, h3]; rfl, fun _ => by rw [h5, h3]; rfl, by rw [h5]; simp, ?_⟩, ?_⟩
      · rw [hw]; exact hT
      · rw [hw, h6]; simp
    | add _ hr hr0 hsum ih =>
      obtain ⟨hs, hb⟩ := ih
      obtain ⟨h1, r, h2, h3, h4, h5⟩ := Edited.addSite_sane (fl := fl) hs hr hr0 hsum
      refine ⟨h1, ?_⟩
      rw [h5]
      refine step _ _ _ _ _ hb ?_ ?_
      · rw [abs_of_nonneg (List.sum_nonneg h1.weights)]
        exact h1.sum
      · rw [hfl.self h2, h4]; ring
    | remove _ hrem ih =>
      obtain ⟨hs, hb⟩ := ih
      obtain ⟨h1, r, h2, h3, h4, h5⟩ := Edited.removeSite_sane hs hrem
      refine ⟨h1, ?_⟩
      rw [h5]
      refine step _ _ _ _ _ hb ?_ ?_
      · rw [abs_of_nonneg (List.sum_nonneg h1.weights)]
        exact h1.sum
      · rw [hfl.self h2, h4]; ring
  exact (key h).2

/-! ### Time -/

theorem RoundedRun.time_double (hfl : Rounding fl) (h : RoundedRun fl env n nT negLog cfg procs s) :
    IsDouble s.time := by
  obtain ⟨-, -, s0, ds, h0, h1⟩ := h
  unfold Rounded.init at h0
  rw [bind_ok] at h0
  obtain ⟨ms, -, h0⟩ := h0
  cases h0
  have key : ∀ (ds : List (Draws ℚ)) (s : Sim ℚ), IsDouble s.time →
      ∀ s', Rounded.run fl env negLog ds s = .ok s' → IsDouble s'.time := by
    intro ds
    induction ds with
    | nil => intro s hs s' h; cases h; exact hs
    | cons d ds ih =>
      intro s hs s' h
      unfold Rounded.run at h
      rw [loopM_cons, bind_ok] at h
      obtain ⟨s1, h3, h4⟩ := h
      refine ih s1 ?_ s' h4
      unfold Rounded.step at h3
      rw [bind_ok] at h3
      obtain ⟨s2, h5, h3⟩ := h3
      unfold Rounded.singleStep at h3
      rw [bind_ok] at h3
      obtain ⟨e, -, h3⟩ := h3
      rw [bind_ok] at h3
      obtain ⟨ms1, -, h3⟩ := h3
      rw [bind_ok] at h3
      obtain ⟨ms2, -, h3⟩ := h3
      cases h3
      unfold Rounded.propagateTime at h5
      rw [bind_ok] at h5
      obtain ⟨r, -, h5⟩ := h5
      rw [bind_ok] at h5
      obtain ⟨dt, -, h5⟩ := h5
      cases h5
      exact hfl.isDouble _
  exact key ds _ isDouble_zero s h1

/-- C55 (partial: the total rate in the table must not be negative; `C55_backwards` shows that it can be). Then the time
does not decrease. -/
theorem C55_time_partial (hfl : Rounding fl) (h : RoundedRun fl env n nT negLog cfg procs s)
    (hlog : ∀ u l, negLog u = some l → 0 ≤ l) {R : ℚ} (hR : Interactions.totalRate s.table = .ok R) (hR0 : 0 ≤ R)
    {us : List ℚ} {s' : Sim ℚ} (hs : Rounded.propagateTime fl negLog s us = .ok s') : s.time ≤ s'.time := by
  unfold Rounded.propagateTime at hs
  rw [hR, ok_bind, bind_ok] at hs
  obtain ⟨dt, hdt, hs⟩ := hs
  cases hs
  have hpos : ∀ (us : List ℚ) (dt : ℚ), Rounded.drawStep fl negLog R us = .ok dt → 0 ≤ dt := by
    intro us
    induction us with
    | nil => intro dt h; cases h
    | cons u us ih =>
      intro dt h
      unfold Rounded.drawStep timeStep at h
      cases hl : negLog u with
      | none => rw [hl] at h; exact ih dt h
      | some l =>
        rw [hl] at h
        dsimp only at h
        split at h
        · rename_i h1
          split at h1
          · cases h1
          · cases h1
            cases h
            exact hfl.le isDouble_zero (div_nonneg (hlog u l hl) hR0)
        · exact ih dt h
  exact hfl.le (h.time_double hfl) (by have := hpos us dt hdt; linarith)

/-! ### What goes wrong -/

namespace Sample

/-- Construct the model and run it, with rounding. -/
def goDouble (env : Env ℚ) (P : PyLattice ℚ) (els : List (List String)) (procs : M (List (Proc ℚ)))
    (ds : List (Draws ℚ)) : M (Sim ℚ) := do
  let c ← config P els
  let ps ← procs
  let s ← Rounded.init toDouble env c ps
  Rounded.run toDouble env lg ds s

/-- Atoms of type A turn into B with rate `r`, those of type C with rate `q`. -/
def decay (r q : ℚ) : M (List (Proc ℚ)) := do
  let a ← process [0] ["A"] ["B"] r [0] [] 0
  let b ← process [0] ["C"] ["B"] q [0] [] 1
  return [a, b]

def threeAndOne : List (List String) := [["A"], ["A"], ["A"], ["C"]]

/-- Atoms of type A turn into C slowly and back fast. -/
def flicker : M (List (Proc ℚ)) := do
  let a ← process [0] ["A"] ["C"] 1 [0] [] 0
  let b ← process [0] ["C"] ["A"] (2 ^ 60) [0] [] 1
  return [a, b]

theorem two_of_map {α β : Type _} {l : List α} {f : α → β} {a b : β} (h : l.map f = [a, b]) :
    ∃ p q, l = [p, q] ∧ f p = a ∧ f q = b := by
  rcases l with _ | ⟨p, _ | ⟨q, _ | ⟨r, l⟩⟩⟩
  · cases h
  · cases h
  · simp only [List.map_cons, List.map_nil, List.cons.injEq, and_true] at h
    exact ⟨p, q, rfl, h.1, h.2⟩
  · simp at h

theorem good_double {P : PyLattice ℚ} {els : List (List String)} {procs : M (List (Proc ℚ))} {ds : List (Draws ℚ)}
    (n : Nat) (hn : P.sites.length = n) {β : Type} {f : Sim ℚ → β} {b : β} (hg : goodCheck (Sample.env P) P els procs = true)
    (hp : procs.map (fun ps => ps.all (fun p => decide (0 < p.rate))) = .ok true)
    (hr : (goDouble (Sample.env P) P els procs ds).map f = .ok b) :
    ∃ cfg ps s, config P els = .ok cfg ∧ procs = .ok ps ∧ RoundedRun toDouble (Sample.env P) n 4 lg cfg ps s ∧
      PositiveRates (Sample.env P) ps ∧ f s = b := by
  obtain ⟨cfg, ps, h1, h2, h3⟩ := goodCheck_ok hg
  obtain ⟨s, hs, hf⟩ := exists_of_map hr
  rw [hn] at h3
  unfold goDouble at hs
  rw [h1, ok_bind, h2, ok_bind] at hs
  obtain ⟨s0, h5, h6⟩ := bind_ok.1 hs
  refine ⟨cfg, ps, s, h1, h2, ⟨h3, fun h => (by cases h), s0, ds, h5, h6⟩, ⟨?_, fun h => (by cases h)⟩, hf⟩
  rw [h2] at hp
  have := Except.ok.inj hp
  rw [List.all_eq_true] at this
  exact fun p hp => by simpa using this p hp

end Sample

set_option synthInstance.maxSize 1000 in
/-- C55 (negation): rounding can end a run. Three atoms decay with rate 0.1, one with a much smaller rate. The stored
total rate of the first process goes 0.1, 0.2, 0.30000000000000004 when the sites are added and leaves `2 ^ -55` when
they are removed. From then on this process is always selected although it has no sites, and the last element of an
empty table is read. The second process has a site and could go on. -/
theorem C55_ghost : ∃ (cfg : Config ℚ) (procs : List (Proc ℚ)) (s : Sim ℚ),
    RoundedRun toDouble (Sample.env Sample.ring) 4 4 Sample.lg cfg procs s ∧
    PositiveRates (Sample.env Sample.ring) procs ∧ procs.map (·.rate) = [toDouble (1 / 10), 1 / 2 ^ 120] ∧
    s.ms.procs.map (·.sites) = [[], [3]] ∧ s.ms.procs.map (·.totalRate) = [1 / 2 ^ 55, 1 / 2 ^ 120] ∧
    ∀ u1 u2 : ℚ, u1 < 1 →
      Rounded.singleStep toDouble (Sample.env Sample.ring) s u1 u2 = .error .outOfBounds := by
  obtain ⟨cfg, ps, s, -, h2, h3, h4, h5⟩ := Sample.good_double (P := Sample.ring) (els := Sample.threeAndOne)
    (procs := Sample.decay (toDouble (1 / 10)) (1 / 2 ^ 120)) (ds := [Sample.half, Sample.half, Sample.half])
    (f := fun s => (s.ms.procs.map (·.sites), s.ms.procs.map (·.totalRate),
      s.ms.procs.map (fun p => (p.custom, p.siteMult)), s.table.map Prod.fst))
    (b := ([[], [3]], [1 / 2 ^ 55, 1 / 2 ^ 120], [(false, []), (false, [1])], [1 / 2 ^ 55, 1 / 2 ^ 55])) 4
    (by decide +kernel) (by decide +kernel) (by decide +kernel) (by decide +kernel)
  simp only [Prod.mk.injEq] at h5
  obtain ⟨a1, a2, a3, a4⟩ := h5
  have hrate : (Sample.decay (toDouble (1 / 10)) (1 / 2 ^ 120)).map (fun ps => ps.map (·.rate)) =
      .ok [toDouble (1 / 10), 1 / 2 ^ 120] := by decide +kernel
  rw [h2] at hrate
  refine ⟨cfg, ps, s, h3, h4, Except.ok.inj hrate, a1, a2, ?_⟩
  intro u1 u2 hu
  have hle : ¬ (1 / 2 ^ 55 : ℚ) < toDouble (u1 * (1 / 2 ^ 55)) := by
    rw [not_lt]
    refine toDouble_rounding.ge ⟨1, -55, by norm_num, by norm_num⟩ ?_
    exact u_mul_le hu.le (by positivity)
  have htab : Rounded.prefixSums toDouble 0 (s.ms.procs.map (·.totalRate)) = [1 / 2 ^ 55, 1 / 2 ^ 55] := by
    rw [← Rounded.probabilityLoop_fst, ← a4, h3.table]
    rfl
  have hpick : Rounded.pickProcessIndex toDouble s.table u1 = .ok 0 := by
    rw [h3.table, Rounded.pickProcessIndex_eq (last := 1 / 2 ^ 55) (by rw [htab]; rfl), htab]
    rw [one_div] at hle
    simp only [lowerBound, lowerBoundLoop, List.length_cons, List.length_nil]
    simp [hle]
  obtain ⟨p, q, hps, c, -⟩ := Sample.two_of_map a3
  simp only [Prod.mk.injEq] at c
  unfold Rounded.singleStep Rounded.select Rounded.pickProcess
  rw [hpick, ok_bind, hps, rd_of_getElem? (show (p :: q :: [])[0]? = some p from rfl), ok_bind]
  unfold Rounded.updateRateTable
  rw [if_neg (by rw [c.1]; simp), ok_bind, wr_of_lt (by simp), ok_bind, pure_ok, ok_bind]
  unfold Rounded.pickSite
  dsimp only
  rw [c.2]
  rfl

/-- C55 (negation): rounding can turn time back. As before with rate 0.3: what is left is negative, and so is the total
rate of the whole model. -/
theorem C55_backwards : ∃ (cfg : Config ℚ) (procs : List (Proc ℚ)) (s s' : Sim ℚ),
    RoundedRun toDouble (Sample.env Sample.ring) 4 4 Sample.lg cfg procs s ∧
    PositiveRates (Sample.env Sample.ring) procs ∧ procs.map (·.rate) = [toDouble (3 / 10), 1 / 2 ^ 120] ∧
    s.ms.procs.map (·.sites) = [[], [3]] ∧ s.ms.procs.map (·.totalRate) = [-1 / 2 ^ 53, 1 / 2 ^ 120] ∧
    Rounded.propagateTime toDouble Sample.lg s [1 / 2] = .ok s' ∧ s'.time < s.time := by
  obtain ⟨cfg, ps, s, -, h2, h3, h4, h5⟩ := Sample.good_double (P := Sample.ring) (els := Sample.threeAndOne)
    (procs := Sample.decay (toDouble (3 / 10)) (1 / 2 ^ 120)) (ds := [Sample.half, Sample.half, Sample.half])
    (f := fun s => (s.ms.procs.map (·.sites), s.ms.procs.map (·.totalRate),
      (Rounded.propagateTime toDouble Sample.lg s [1 / 2]).map (fun s' => decide (s'.time < s.time))))
    (b := ([[], [3]], [-1 / 2 ^ 53, 1 / 2 ^ 120], .ok true)) 4
    (by decide +kernel) (by decide +kernel) (by decide +kernel) (by decide +kernel)
  simp only [Prod.mk.injEq] at h5
  obtain ⟨a1, a2, a3⟩ := h5
  have hrate : (Sample.decay (toDouble (3 / 10)) (1 / 2 ^ 120)).map (fun ps => ps.map (·.rate)) =
      .ok [toDouble (3 / 10), 1 / 2 ^ 120] := by decide +kernel
  rw [h2] at hrate
  obtain ⟨s', hs', hlt⟩ := Sample.exists_of_map a3
  exact ⟨cfg, ps, s, s', h3, h4, Except.ok.inj hrate, a1, a2, hs', by simpa using hlt⟩

/-- C55 (negation): with rounding, time may stand still (it increases strictly without, C30). -/
theorem C55_stalls : ∃ (cfg : Config ℚ) (procs : List (Proc ℚ)) (s s' : Sim ℚ),
    RoundedRun toDouble (Sample.env Sample.ring) 4 4 Sample.lg cfg procs s ∧
    PositiveRates (Sample.env Sample.ring) procs ∧ SoundTotals s.ms.procs ∧
    Rounded.step toDouble (Sample.env Sample.ring) Sample.lg s Sample.half = .ok s' ∧ s'.time = s.time := by
  obtain ⟨cfg, ps, s, -, h2, h3, h4, h5⟩ := Sample.good_double (P := Sample.ring) (els := Sample.ringElements)
    (procs := Sample.flicker) (ds := [Sample.half])
    (f := fun s => (s.ms.procs.map (fun p => (p.sites, p.totalRate)),
      (Rounded.step toDouble (Sample.env Sample.ring) Sample.lg s Sample.half).map (fun s' => decide (s'.time = s.time))))
    (b := ([([], 0), ([0], 2 ^ 60)], .ok true)) 4
    (by decide +kernel) (by decide +kernel) (by decide +kernel) (by decide +kernel)
  simp only [Prod.mk.injEq] at h5
  obtain ⟨a1, a2⟩ := h5
  obtain ⟨s', hs', hlt⟩ := Sample.exists_of_map a2
  refine ⟨cfg, ps, s, s', h3, h4, ?_, hs', by simpa using hlt⟩
  obtain ⟨p, q, hps, c, d⟩ := Sample.two_of_map a1
  simp only [Prod.mk.injEq] at c d
  rw [hps]
  refine ⟨?_, ?_, q, by simp, by rw [d.2]; positivity⟩
  · intro r hr
    simp only [List.mem_cons, List.not_mem_nil, or_false] at hr
    rcases hr with rfl | rfl
    · rw [c.2]
    · rw [d.2]; positivity
  · intro r hr h0
    simp only [List.mem_cons, List.not_mem_nil, or_false] at hr
    rcases hr with rfl | rfl
    · exact c.2
    · rw [d.1] at h0; cases h0

/-! ### The theorems are about something -/

/-- A state of a run with rounding, with rates 2 and 1, to which the theorems on grids apply. -/
example : ∃ (cfg : Config ℚ) (procs : List (Proc ℚ)) (s : Sim ℚ),
    RoundedRun toDouble (Sample.env Sample.ring) 4 4 Sample.lg cfg procs s ∧
    PositiveRates (Sample.env Sample.ring) procs ∧ Matcher.RatesOnGrid 0 2 (Sample.env Sample.ring) procs ∧
    procs.length * (4 * 2) ≤ 2 ^ 53 ∧ (∃ p ∈ s.ms.procs, p.sites ≠ []) ∧ s.time ≠ 0 ∧
    (∃ u, 0 < u ∧ u < 1 ∧ Sample.lg u ≠ none) := by
  obtain ⟨cfg, ps, s, -, h2, h3, h4, h5⟩ := Sample.good_double (P := Sample.ring) (els := Sample.ringElements)
    (procs := Sample.hops) (ds := [Sample.half, Sample.half])
    (f := fun s => (s.ms.procs.map (·.sites), decide (s.time ≠ 0)))
    (b := ([[2], [2]], true)) 4
    (by decide +kernel) (by decide +kernel) (by decide +kernel) (by decide +kernel)
  simp only [Prod.mk.injEq, decide_eq_true_eq] at h5
  have hrate : Sample.hops.map (fun ps => ps.map (·.rate)) = .ok [2, 1] := by decide +kernel
  rw [h2] at hrate
  have hrate : ps.map (·.rate) = [2, 1] := Except.ok.inj hrate
  refine ⟨cfg, ps, s, h3, h4, ⟨?_, fun h => (by cases h)⟩, ?_, ?_, h5.2, 1 / 2, by norm_num, by norm_num, by decide +kernel⟩
  · intro p hp
    have : p.rate ∈ [(2 : ℚ), 1] := by rw [← hrate]; exact List.mem_map_of_mem hp
    simp only [List.mem_cons, List.not_mem_nil, or_false] at this
    rcases this with h | h
    · exact ⟨2, le_rfl, by rw [h]; norm_num⟩
    · exact ⟨1, by norm_num, by rw [h]; norm_num⟩
  · have : ps.length = 2 := by rw [← List.length_map (f := (·.rate)), hrate]; rfl
    rw [this]
    norm_num
  · obtain ⟨p, q, hps, c, -⟩ := Sample.two_of_map h5.1
    rw [hps]
    exact ⟨p, by simp, by rw [c]; simp⟩

/-- Rounding as in the hardware is a rounding. -/
example : Rounding toDouble := toDouble_rounding

/-- Adding 0.1 three times and removing it three times leaves something. -/
example : ∃ p : Proc ℚ, Edited toDouble 1 6 p ∧ p.weights.sum = 0 ∧ p.totalRate = 1 / 2 ^ 55 := by
  obtain ⟨r, hr⟩ : ∃ r, r = toDouble (1 / 10) := ⟨_, rfl⟩
  obtain ⟨a, ha⟩ : ∃ a, a = Rounded.addSite toDouble (sampleProc 0 (toDouble (1 / 10)) []) 0 r 1 := ⟨_, rfl⟩
  obtain ⟨b, hb⟩ : ∃ b, b = Rounded.addSite toDouble a 1 r 1 := ⟨_, rfl⟩
  obtain ⟨c, hc⟩ : ∃ c, c = Rounded.addSite toDouble b 2 r 1 := ⟨_, rfl⟩
  have h0 : Edited toDouble 1 0 (sampleProc 0 (toDouble (1 / 10)) []) :=
    .start (toDouble_rounding.isDouble _) (by decide +kernel) rfl rfl rfl (by decide +kernel)
  have hd : IsDouble r := by rw [hr]; exact toDouble_rounding.isDouble _
  have h00 : 0 ≤ r := by rw [hr]; decide +kernel
  have h1 : Edited toDouble 1 1 a := by
    rw [ha]; exact .add h0 hd h00 (by rw [hr]; decide +kernel)
  have h2 : Edited toDouble 1 2 b := by
    rw [hb]; exact .add h1 hd h00 (by rw [ha, hr]; decide +kernel)
  have h3 : Edited toDouble 1 3 c := by
    rw [hc]; exact .add h2 hd h00 (by rw [hb, ha, hr]; decide +kernel)
  obtain ⟨p, hp, hf⟩ := Sample.exists_of_map
    (x := Rounded.removeSite toDouble c 2 >>= fun d => Rounded.removeSite toDouble d 1 >>= fun e =>
      Rounded.removeSite toDouble e 0) (f := fun p => (p.weights.sum, p.totalRate)) (b := (0, 1 / 2 ^ 55))
    (by rw [hc, hb, ha, hr]; decide +kernel)
  obtain ⟨d, e1, hp⟩ := bind_ok.1 hp
  obtain ⟨e, e2, hp⟩ := bind_ok.1 hp
  simp only [Prod.mk.injEq] at hf
  exact ⟨p, .remove (.remove (.remove h3 e1) e2) hp, hf⟩

end KMC
