import Verif.Props.Rounded
import Verif.Props.Random
import Verif.Lemmas.AlikeRun
import Verif.Samples.Events

/-!
# Property C55: when rounding changes no event

Random numbers have few bits: 32 with the default generator (C57). If the rates are multiples of one power of two, and the total rate is
not too many of them, all products that decide about the selection fit into a `double`. Then a run in rounded arithmetic does exactly
what the run in exact arithmetic does with the same random numbers.
-/

set_option linter.unusedSectionVars false

namespace KMC

open LatticeModel Interactions

/-- A fraction of `m` bits. -/
def OnBits (m : Nat) (u : ℚ) : Prop := ∃ j : Nat, j ≤ 2 ^ m ∧ u = j / 2 ^ m

variable {fl : ℚ → ℚ} {e : ℤ} {B C D n m : Nat}

theorem OnBits.mul {u x : ℚ} (hu : OnBits m u) (hx : OnGrid e C x) : OnGrid (e - m) (2 ^ m * C) (u * x) := by
  obtain ⟨j, hj, rfl⟩ := hu
  obtain ⟨k, hk, rfl⟩ := hx
  refine ⟨j * k, Nat.mul_le_mul hj hk, ?_⟩
  rw [zpow_sub₀ (by norm_num), zpow_natCast]
  push_cast
  ring

theorem OnBits.exact (hfl : Rounding fl) {u x : ℚ} (hu : OnBits m u) (hx : OnGrid e C x) (hC : C * 2 ^ m ≤ 2 ^ 53) :
    fl (u * x) = u * x :=
  (hu.mul hx).self hfl (by rw [mul_comm]; exact hC)

theorem prefixSums_onGrid {ts : List ℚ} (ht : ∀ t ∈ ts, OnGrid e C t) {a : ℚ} (ha : OnGrid e D a) :
    ∀ x ∈ Proc.prefixSums a ts, OnGrid e (D + ts.length * C) x := by
  induction ts generalizing a D with
  | nil => intro x hx; cases hx
  | cons t ts ih =>
    have h1 : OnGrid e (D + C) (a + t) := ha.add (ht t (by simp))
    intro x hx
    rw [List.length_cons, Nat.succ_mul]
    rcases List.mem_cons.1 hx with rfl | hx
    · exact h1.mono (by omega)
    · exact (ih (fun t' ht' => ht t' (by simp [ht'])) h1 x hx).mono (by omega)

theorem prefixSums_exact (hfl : Rounding fl) {ts : List ℚ} (ht : ∀ t ∈ ts, OnGrid e C t) {a : ℚ} (ha : OnGrid e D a)
    (hB : D + ts.length * C ≤ 2 ^ 53) : Rounded.prefixSums fl a ts = Proc.prefixSums a ts := by
  induction ts generalizing a D with
  | nil => rfl
  | cons t ts ih =>
    have h1 : OnGrid e (D + C) (a + t) := ha.add (ht t (by simp))
    rw [List.length_cons, Nat.succ_mul] at hB
    unfold Rounded.prefixSums Proc.prefixSums
    rw [h1.self hfl (by omega), ih (fun t' ht' => ht t' (by simp [ht'])) h1 (by omega)]

/-- What is needed of the processes for an exact selection: all rates on the grid, at most `n` sites each. -/
structure ExactTables (e : ℤ) (B n : Nat) (procs : List (Proc ℚ)) : Prop where
  consistent : ∀ p ∈ procs, p.Consistent
  weights : ∀ p ∈ procs, ∀ w ∈ p.weights, OnGrid e B w
  few : ∀ p ∈ procs, p.sites.length ≤ n

namespace ExactTables
variable {procs : List (Proc ℚ)} (h : ExactTables e B n procs)
include h

theorem length {p : Proc ℚ} (hp : p ∈ procs) : p.weights.length ≤ n := by
  rw [Proc.weights_length (h.consistent p hp)]
  exact h.few p hp

theorem total {p : Proc ℚ} (hp : p ∈ procs) : OnGrid e (n * B) p.totalRate := by
  rw [(h.consistent p hp).total]
  exact (OnGrid.sum (h.weights p hp)).mono (Nat.mul_le_mul_right _ (h.length hp))

theorem table (hfl : Rounding fl) (hB : procs.length * (n * B) ≤ 2 ^ 53) :
    Rounded.probabilityTable fl procs = probabilityTable procs :=
  probabilityLoop_exact hfl (fun _ hp => h.total hp) (OnGrid.zero (B := 0)) (by omega)

theorem rateTable (hfl : Rounding fl) (hB : n * B ≤ 2 ^ 53) {p : Proc ℚ} (hp : p ∈ procs) :
    Rounded.updateRateTable fl p = p.updateRateTable := by
  have hc := h.consistent p hp
  have hl := Nat.mul_le_mul_right B (h.length hp)
  rw [← Rounded.updateRateTable_id, Rounded.updateRateTable_eq hc.mults hc.rates, Rounded.updateRateTable_eq hc.mults hc.rates]
  have h1 : p.weights.map fl = p.weights := by
    conv_rhs => rw [← List.map_id p.weights]
    apply List.map_congr_left
    intro w hw
    have hpos : 0 < p.weights.length := List.length_pos_of_mem hw
    exact (h.weights p hp w hw).self hfl ((Nat.le_mul_of_pos_left B hpos).trans (hl.trans hB))
  rw [h1, List.map_id, Rounded.prefixSums_id, prefixSums_exact hfl (h.weights p hp) (OnGrid.zero (B := 0)) (by omega)]

theorem site (hfl : Rounding fl) (hB : n * B * 2 ^ m ≤ 2 ^ 53) {p p' : Proc ℚ} (hp : p ∈ procs) (hp' : p.updateRateTable = .ok p')
    {u : ℚ} (hu : OnBits m u) : Rounded.pickSite fl p' u = p'.pickSite u := by
  have hc := h.consistent p hp
  have hl := Nat.mul_le_mul_right B (h.length hp)
  rw [← Rounded.updateRateTable_id, Rounded.updateRateTable_eq hc.mults hc.rates, List.map_id, Rounded.prefixSums_id] at hp'
  obtain rfl := Except.ok.inj hp'
  unfold Rounded.pickSite Proc.pickSite
  dsimp only
  cases ht : (Proc.prefixSums 0 p.weights).getLast? with
  | none => rfl
  | some total =>
    have h1 := prefixSums_onGrid (h.weights p hp) (OnGrid.zero (B := 0)) total (List.mem_of_getLast? ht)
    have h2 := hu.exact hfl (h1.mono (C := n * B) (by omega)) hB
    dsimp only
    rw [h2]

theorem process (hfl : Rounding fl) (hB : procs.length * (n * B) * 2 ^ m ≤ 2 ^ 53) {u : ℚ} (hu : OnBits m u) :
    Rounded.pickProcessIndex fl (probabilityTable procs) u = pickProcessIndex (probabilityTable procs) u := by
  unfold Rounded.pickProcessIndex pickProcessIndex Interactions.totalRate
  cases ht : (probabilityTable procs).getLast? with
  | none => rfl
  | some x =>
    have h0 : x.1 ∈ (Rounded.probabilityTable id procs).map Prod.fst := by
      rw [Rounded.probabilityTable_id]
      exact List.mem_map_of_mem (List.mem_of_getLast? ht)
    rw [Rounded.probabilityTable, Rounded.probabilityLoop_fst, Rounded.prefixSums_id] at h0
    have h1 := prefixSums_onGrid (e := e) (C := n * B) (fun t ht' => by
      obtain ⟨p, hp, rfl⟩ := List.mem_map.1 ht'
      exact h.total hp) (OnGrid.zero (B := 0)) x.1 h0
    rw [List.length_map, Nat.zero_add] at h1
    have h2 := hu.exact hfl h1 hB
    dsimp only
    rw [ok_bind, ok_bind, h2]

/-- The same process and the same site are selected. -/
theorem select (hfl : Rounding fl) (hB : procs.length * (n * B) * 2 ^ m ≤ 2 ^ 53) {u1 u2 : ℚ} (h1 : OnBits m u1) (h2 : OnBits m u2) :
    Rounded.select fl procs (probabilityTable procs) u1 u2 = LatticeModel.select procs (probabilityTable procs) u1 u2 := by
  unfold Rounded.select LatticeModel.select Rounded.pickProcess pickProcess
  rw [h.process hfl hB h1]
  cases hi : pickProcessIndex (probabilityTable procs) u1 with
  | error f => rfl
  | ok i =>
    rw [ok_bind, ok_bind]
    cases hp : rd procs i with
    | error f => rfl
    | ok p =>
      have hpm : p ∈ procs := List.mem_of_getElem? (rd_ok.1 hp)
      have hlen : 0 < procs.length := List.length_pos_of_mem hpm
      have hB1 : n * B * 2 ^ m ≤ 2 ^ 53 := (Nat.mul_le_mul_right _ (Nat.le_mul_of_pos_left _ hlen)).trans hB
      have hB2 : n * B ≤ 2 ^ 53 := (Nat.le_mul_of_pos_right _ (by positivity)).trans hB1
      rw [ok_bind, ok_bind, h.rateTable hfl hB2 hpm]
      cases hp' : p.updateRateTable with
      | error f => rfl
      | ok p' =>
        simp only [ok_bind]
        cases hw : wr procs i p' with
        | error f => rfl
        | ok procs' =>
          simp only [ok_bind, pure_ok]
          rw [h.site hfl hB1 hpm hp' h2]

end ExactTables

namespace World
variable {W : World ℚ}

theorem Gridded.tables (hg : W.Gridded e B) (hok : W.Ok) {s : MState ℚ} (hI : W.Inv s) : ExactTables e B W.n s.procs := by
  obtain ⟨A, hI⟩ := hI
  refine ⟨?_, ?_, ?_⟩
  · intro p hp
    obtain ⟨j, hj⟩ := List.mem_iff_getElem?.1 hp
    exact (hI.book.rep j p hj).consistent
  · intro p hp
    obtain ⟨j, hj⟩ := List.mem_iff_getElem?.1 hp
    exact (hI.book.rep j p hj).weights_onGrid (hg.content hok hI j) ((hg.procs hI.toPreA).own p hp)
  · intro p hp
    obtain ⟨j, hj⟩ := List.mem_iff_getElem?.1 hp
    have hr := hI.book.rep j p hj
    exact length_le_of_lt hr.consistent.nodup (hr.lt (hg.content hok hI j))

end World

namespace Rounded
variable {W : World ℚ}

/-- A step with rounding is the step without. -/
theorem singleStep_exact (hfl : Rounding fl) (h : W.Ok) (hg : W.Gridded e B) (hB : W.procs.length * (W.n * B) * 2 ^ m ≤ 2 ^ 53)
    {s : Sim ℚ} (hI : W.Inv s.ms) (ht : s.table = Interactions.probabilityTable s.ms.procs) {u1 u2 : ℚ} (h1 : OnBits m u1)
    (h2 : OnBits m u2) : singleStep fl W.env s u1 u2 = LatticeModel.singleStep W.env s u1 u2 := by
  have hlen : ∀ {ms : MState ℚ}, W.Inv ms → ms.procs.length = W.procs.length := by
    rintro ms ⟨A, hI⟩
    rw [← hI.procs, List.length_map]
  have hsel := (hg.tables h hI).select hfl (by rw [hlen hI]; exact hB) h1 h2
  rw [← ht] at hsel
  unfold singleStep LatticeModel.singleStep
  rw [hsel]
  cases hs : LatticeModel.select s.ms.procs s.table u1 u2 with
  | error f => rfl
  | ok r =>
    rw [ok_bind, ok_bind]
    rw [hs] at hsel
    obtain ⟨p, p', hp, hp', hset, hsite⟩ := select_set hsel
    obtain ⟨A, hI⟩ := hI
    obtain ⟨hI0, hp0, hst, hsites⟩ := World.select_inv hI hp hp'
    rw [hset]
    obtain ⟨sk, cfg1, cfg2, aff, hev⟩ := World.event_ok h hI0 (j := r.1) (q := p') hp0 (by rw [hsites]; exact hsite)
    rw [World.performAt_eq hev, ok_bind, ok_bind]
    have hcall := World.mid_call h hI0.toPreA hev
    have h1 : (World.mid { s.ms with procs := s.ms.procs.set r.1 p' } r.1 p' cfg2 aff).procs[r.1]? =
        some { p' with affected := aff } := by
      simp only [World.mid]
      rw [List.getElem?_set, if_pos rfl, if_pos (List.getElem?_eq_some_iff.1 hev.proc).1]
    have hre : rematch fl W.env (World.mid { s.ms with procs := s.ms.procs.set r.1 p' } r.1 p' cfg2 aff) r.1 =
        LatticeModel.rematch W.env (World.mid { s.ms with procs := s.ms.procs.set r.1 p' } r.1 p' cfg2 aff) r.1 := by
      have he : W.env.L.supersetNeighbourIndices aff
          (Interactions.maxRange (World.mid { s.ms with procs := s.ms.procs.set r.1 p' } r.1 p' cfg2 aff).procs) = W.again aff := by
        unfold World.again
        rw [h.maxRange, ← (World.mid_pre hI0.toPreA hev).procs, Interactions.maxRange_still]
      unfold rematch LatticeModel.rematch
      rw [rd_of_getElem? h1, ok_bind, ok_bind]
      dsimp only
      rw [he]
      have hlen := h.len
      exact Matcher.calculateMatching_exact hfl hcall (by rw [hlen]; exact hg.content h hI0)
        (hg.procs (World.mid_pre hI0.toPreA hev)) (by rw [hlen]; exact hg.total) hg.one
    rw [hre]
    cases hm : LatticeModel.rematch W.env (World.mid { s.ms with procs := s.ms.procs.set r.1 p' } r.1 p' cfg2 aff) r.1 with
    | error f => rfl
    | ok ms2 =>
      rw [ok_bind, ok_bind]
      have hI2 : W.Inv ms2 := by
        have hs1 : singleStep fl W.env s u1 u2 = .ok { s with ms := ms2, table := probabilityTable fl ms2.procs } := by
          unfold singleStep
          rw [hsel, ok_bind, hset, World.performAt_eq hev, ok_bind, hre, hm]
          rfl
        exact (singleStep_inv hfl h hg ⟨A, hI⟩ hs1).1
      have hB' : W.procs.length * (W.n * B) ≤ 2 ^ 53 := (Nat.le_mul_of_pos_right _ (by positivity)).trans hB
      rw [(hg.tables h hI2).table hfl (by rw [hlen hI2]; exact hB')]

end Rounded

/-- The relative error of the time after `k` steps, about `(k + 1) 2 ^ -53`. -/
def timeError (k : Nat) : ℚ := (1 + 1 / 2 ^ 53) ^ (k + 1) - 1

theorem timeError_ge (k : Nat) : 1 / 2 ^ 53 ≤ timeError k := by
  have : (1 + 1 / 2 ^ 53 : ℚ) ^ 1 ≤ (1 + 1 / 2 ^ 53) ^ (k + 1) := pow_le_pow_right₀ (by norm_num) (by omega)
  unfold timeError
  linarith

/-- Two states that differ in nothing but the time, and in that only by rounding errors of `k` steps. -/
structure SameButTime (k : Nat) (s t : Sim ℚ) : Prop where
  ms : s.ms = t.ms
  table : s.table = t.table
  nonneg : 0 ≤ t.time
  time : |s.time - t.time| ≤ timeError k * t.time

theorem time_follow (hfl : Rounding fl) {k : Nat} {a b dt : ℚ} (hb : 0 ≤ b) (hd : 0 ≤ dt) (h : |a - b| ≤ timeError k * b) :
    |fl (a + fl dt) - (b + dt)| ≤ timeError (k + 1) * (b + dt) := by
  have h1 := hfl.error dt
  have h2 := hfl.error (a + fl dt)
  have h3 := timeError_ge k
  rw [abs_of_nonneg hd] at h1
  have h4 : |a + fl dt - (b + dt)| ≤ timeError k * (b + dt) := by
    have e1 : a + fl dt - (b + dt) = (a - b) + (fl dt - dt) := by ring
    rw [e1]
    refine (abs_add_le _ _).trans ?_
    have : dt / 2 ^ 53 ≤ timeError k * dt := by
      have := mul_le_mul_of_nonneg_right h3 hd
      linarith
    linarith
  have h5 : |a + fl dt| ≤ (1 + timeError k) * (b + dt) := by
    have e1 : a + fl dt = (a + fl dt - (b + dt)) + (b + dt) := by ring
    rw [e1]
    refine (abs_add_le _ _).trans ?_
    rw [abs_of_nonneg (by linarith : 0 ≤ b + dt)]
    linarith
  have e2 : fl (a + fl dt) - (b + dt) = (fl (a + fl dt) - (a + fl dt)) + (a + fl dt - (b + dt)) := by ring
  rw [e2]
  refine (abs_add_le _ _).trans ?_
  have e3 : timeError (k + 1) = (1 + timeError k) * (1 / 2 ^ 53) + timeError k := by
    unfold timeError
    ring
  rw [e3]
  have h6 : |a + fl dt| / 2 ^ 53 ≤ (1 + timeError k) * (b + dt) * (1 / 2 ^ 53) := by
    rw [div_eq_mul_one_div]
    exact mul_le_mul_of_nonneg_right h5 (by positivity)
  linarith

theorem drawStep_both (negLog : ℚ → Option ℚ) (r : ℚ) (us : List ℚ) :
    Both (fun x y => x = fl y ∧ ∃ u ∈ us, ∃ l, negLog u = some l ∧ y = l / r) (Rounded.drawStep fl negLog r us)
      (LatticeModel.drawStep negLog r us) := by
  induction us with
  | nil => exact .inl ⟨_, rfl, rfl⟩
  | cons u us ih =>
    unfold Rounded.drawStep LatticeModel.drawStep
    cases h : timeStep negLog r u with
    | none => exact ih.mono fun x y ⟨h1, v, hv, h2⟩ => ⟨h1, v, List.mem_cons_of_mem _ hv, h2⟩
    | some dt =>
      refine .inr ⟨_, _, rfl, rfl, rfl, u, List.mem_cons_self, ?_⟩
      unfold timeStep at h
      cases hl : negLog u with
      | none => rw [hl] at h; cases h
      | some l =>
        rw [hl] at h
        dsimp only at h
        split at h
        · cases h
        · exact ⟨l, rfl, (Option.some.inj h).symm⟩

namespace Rounded
variable {W : World ℚ}

theorem totalRate_nonneg {procs : List (Proc ℚ)} (h : ExactTables e B n procs) {r : ℚ}
    (hr : Interactions.totalRate (Interactions.probabilityTable procs) = .ok r) : 0 ≤ r := by
  unfold Interactions.totalRate at hr
  cases ht : (Interactions.probabilityTable procs).getLast? with
  | none => rw [ht] at hr; cases hr
  | some x =>
    rw [ht] at hr
    obtain rfl := Except.ok.inj hr
    have h0 : x.1 ∈ (probabilityTable id procs).map Prod.fst := by
      rw [probabilityTable_id]
      exact List.mem_map_of_mem (List.mem_of_getLast? ht)
    rw [probabilityTable, probabilityLoop_fst, prefixSums_id] at h0
    exact (prefixSums_onGrid (e := e) (C := n * B) (fun t ht' => by
      obtain ⟨p, hp, rfl⟩ := List.mem_map.1 ht'
      exact h.total hp) (OnGrid.zero (B := 0)) x.1 h0).nonneg

theorem singleStep_time {env : Env ℚ} {a b : Sim ℚ} {u1 u2 : ℚ} (h1 : a.ms = b.ms) (h2 : a.table = b.table) :
    Both (fun x y : Sim ℚ => x.ms = y.ms ∧ x.table = y.table ∧ x.time = a.time ∧ y.time = b.time)
      (LatticeModel.singleStep env a u1 u2) (LatticeModel.singleStep env b u1 u2) := by
  unfold LatticeModel.singleStep
  rw [h1, h2]
  cases LatticeModel.select b.ms.procs b.table u1 u2 with
  | error f => exact .inl ⟨f, rfl, rfl⟩
  | ok r =>
    rw [ok_bind, ok_bind]
    cases LatticeModel.performAt { b.ms with procs := r.2.2 } r.1 r.2.1 with
    | error f => exact .inl ⟨f, rfl, rfl⟩
    | ok ms1 =>
      rw [ok_bind, ok_bind]
      cases LatticeModel.rematch env ms1 r.1 with
      | error f => exact .inl ⟨f, rfl, rfl⟩
      | ok ms2 => exact .inr ⟨_, _, rfl, rfl, rfl, rfl, rfl, rfl⟩

/-- A run with rounding does what the run without does. -/
theorem run_exact (hfl : Rounding fl) (h : W.Ok) (hg : W.Gridded e B) (hB : W.procs.length * (W.n * B) * 2 ^ m ≤ 2 ^ 53)
    {negLog : ℚ → Option ℚ} (ds : List (Draws ℚ))
    (hl : ∀ d ∈ ds, ∀ u ∈ d.time, ∀ l, negLog u = some l → 0 ≤ l) (hd : ∀ d ∈ ds, OnBits m d.process ∧ OnBits m d.site) :
    ∀ {s t : Sim ℚ} {k : Nat}, W.Inv s.ms → SameButTime k s t → s.table = Interactions.probabilityTable s.ms.procs →
      Both (SameButTime (k + ds.length)) (run fl W.env negLog ds s) (LatticeModel.run W.env negLog ds t) := by
  induction ds with
  | nil =>
    intro s t k _ h1 _
    exact .inr ⟨s, t, rfl, rfl, h1⟩
  | cons d ds ih =>
    intro s t k hI h1 h3
    have hB' : W.procs.length * (W.n * B) ≤ 2 ^ 53 := (Nat.le_mul_of_pos_right _ (by positivity)).trans hB
    have hlen : ∀ {ms : MState ℚ}, W.Inv ms → ms.procs.length = W.procs.length := by
      rintro ms ⟨A, hI⟩
      rw [← hI.procs, List.length_map]
    have hstep : Both (fun a b => W.Inv a.ms ∧ a.table = Interactions.probabilityTable a.ms.procs ∧ SameButTime (k + 1) a b)
        (step fl W.env negLog s d) (LatticeModel.step W.env negLog t d) := by
      unfold step LatticeModel.step
      have htime : Both (fun a b => a.ms = s.ms ∧ a.table = s.table ∧ SameButTime (k + 1) a b)
          (propagateTime fl negLog s d.time) (LatticeModel.propagateTime negLog t d.time) := by
        unfold propagateTime LatticeModel.propagateTime
        rw [← h1.table]
        cases hr : Interactions.totalRate s.table with
        | error f => exact .inl ⟨f, rfl, rfl⟩
        | ok r =>
          rw [ok_bind, ok_bind]
          have hr0 : 0 ≤ r := totalRate_nonneg (hg.tables h hI) (by rw [← h3]; exact hr)
          refine (drawStep_both (fl := fl) negLog r d.time).bind ?_
          rintro x y ⟨rfl, u, hum, l, hu, rfl⟩
          have hdt : 0 ≤ l / r := div_nonneg (hl d (by simp) u hum l hu) hr0
          exact .inr ⟨_, _, rfl, rfl, rfl, rfl, h1.ms, rfl, add_nonneg h1.nonneg hdt, time_follow hfl h1.nonneg hdt h1.time⟩
      refine htime.bind ?_
      rintro a b ⟨a1, a2, a3⟩
      obtain ⟨d1, d2⟩ := hd d (by simp)
      have hIa : W.Inv a.ms := by rw [a1]; exact hI
      have hta : a.table = Interactions.probabilityTable a.ms.procs := by rw [a1, a2, h3]
      have hex := singleStep_exact hfl h hg hB hIa hta d1 d2
      rw [hex]
      have key := singleStep_time (env := W.env) (u1 := d.process) (u2 := d.site) a3.ms a3.table
      rcases key with ⟨f, k1, k2⟩ | ⟨x, y, k1, k2, k3, k4, k5, k6⟩
      · exact .inl ⟨f, k1, k2⟩
      · obtain ⟨i1, i2⟩ := singleStep_inv hfl h hg hIa (hex.trans k1)
        refine .inr ⟨x, y, k1, k2, i1, ?_, k3, k4, by rw [k6]; exact a3.nonneg, by rw [k5, k6]; exact a3.time⟩
        rw [i2, (hg.tables h i1).table hfl (by rw [hlen i1]; exact hB')]
    unfold run LatticeModel.run
    rw [loopM_cons, loopM_cons]
    refine hstep.bind ?_
    rintro a b ⟨i1, i2, i3⟩
    have := ih (fun d hd' => hl d (by simp [hd'])) (fun d hd' => hd d (by simp [hd'])) i1 i3 i2
    rw [List.length_cons, show k + (ds.length + 1) = k + 1 + ds.length by omega]
    exact this

end Rounded

variable {env : Env ℚ} {nT : Nat} {cfg : Config ℚ} {procs : List (Proc ℚ)} {negLog : ℚ → Option ℚ}

theorem Rounded.init_exact (hfl : Rounding fl) (h : WellFormed env n nT cfg procs)
    (hcu : env.useCustomRates = true → CustomRatesOk env n nT cfg procs) (hg : Matcher.RatesOnGrid e B env procs) (hne : procs ≠ [])
    (hB : procs.length * (n * B) ≤ 2 ^ 53) : Rounded.init fl env cfg procs = LatticeModel.init env cfg procs := by
  have hB1 : n * B ≤ 2 ^ 53 := (Nat.le_mul_of_pos_left _ (List.length_pos_iff.2 hne)).trans hB
  have hm : Rounded.initialMatching fl env cfg procs = LatticeModel.initialMatching env cfg procs := by
    cases c1 : cfg.initMatchLists env.dist env.L (Interactions.maxRange procs) with
    | error f =>
      unfold Rounded.initialMatching LatticeModel.initialMatching
      rw [c1]
      rfl
    | ok cfg1 =>
      cases c2 : Interactions.updateProcessMatchLists env.implicitWildcards cfg1 env.L (Interactions.clearMatching procs) with
      | error f =>
        unfold Rounded.initialMatching LatticeModel.initialMatching
        rw [c1, ok_bind, ok_bind]
        dsimp only
        rw [c2]
        rfl
      | ok procs1 => exact (Rounded.initialMatching_exact hfl h hcu hg hB1 ⟨c1, c2⟩).2
  unfold Rounded.init LatticeModel.init
  rw [hm]
  cases hi : LatticeModel.initialMatching env cfg procs with
  | error f => rfl
  | ok ms =>
    rw [ok_bind, ok_bind]
    obtain ⟨cfg2, procs2, hp, hok, hinv, -⟩ := initialMatching_inv h hcu hi
    obtain ⟨hgr, -⟩ := Rounded.initialMatching_exact hfl h hcu hg hB1 hp
    have hlen : ms.procs.length = procs.length := by
      obtain ⟨A, hI⟩ := hinv
      have e1 : ms.procs.map Proc.still = procs2.map Proc.still := hI.procs
      have e2 := congrArg List.length e1
      rw [List.length_map, List.length_map, prepared_length hp] at e2
      exact e2
    rw [(hgr.tables hok hinv).table hfl (by rw [hlen]; exact hB)]

/-- **C55** (partial: all rates must be multiples of one power of two, `2 ^ e`, at most `B` each. The random numbers have `m` bits, and
the number of processes times the number of sites times `B` times `2 ^ m` is at most `2 ^ 53`.) The constructor and the run with rounding
end as without, with the same error if there is one. Otherwise the same events have taken place: the two final states differ in nothing
but the time, and in that by a relative error of about `2 ^ -53` for each step. -/
theorem C55_same_events_partial (hfl : Rounding fl) (h : WellFormed env n nT cfg procs)
    (hcu : env.useCustomRates = true → CustomRatesOk env n nT cfg procs) (hg : Matcher.RatesOnGrid e B env procs) (hne : procs ≠ [])
    (hB : procs.length * (n * B) * 2 ^ m ≤ 2 ^ 53) (ds : List (Draws ℚ))
    (hl : ∀ d ∈ ds, ∀ u ∈ d.time, ∀ l, negLog u = some l → 0 ≤ l) (hd : ∀ d ∈ ds, OnBits m d.process ∧ OnBits m d.site) :
    Both (SameButTime ds.length) (Rounded.init fl env cfg procs >>= Rounded.run fl env negLog ds)
      (LatticeModel.init env cfg procs >>= LatticeModel.run env negLog ds) := by
  have hB' : procs.length * (n * B) ≤ 2 ^ 53 := (Nat.le_mul_of_pos_right _ (by positivity)).trans hB
  rw [Rounded.init_exact hfl h hcu hg hne hB']
  cases hi : LatticeModel.init env cfg procs with
  | error f => exact .inl ⟨f, rfl, rfl⟩
  | ok s0 =>
    rw [ok_bind, ok_bind]
    unfold LatticeModel.init at hi
    obtain ⟨ms, hm, hi⟩ := bind_ok.1 hi
    obtain rfl := Except.ok.inj hi
    obtain ⟨cfg2, procs2, hp, hok, hinv, -⟩ := initialMatching_inv h hcu hm
    have hB1 : n * B ≤ 2 ^ 53 := (Nat.le_mul_of_pos_left _ (List.length_pos_iff.2 hne)).trans hB'
    obtain ⟨hgr, -⟩ := Rounded.initialMatching_exact hfl h hcu hg hB1 hp
    have hlen : (World.of env n nT (Interactions.maxRange procs) cfg2 procs2).procs.length = procs.length := by
      show (procs2.map Proc.still).length = procs.length
      rw [List.length_map, prepared_length hp]
    have := Rounded.run_exact (W := World.of env n nT (Interactions.maxRange procs) cfg2 procs2) (m := m) (k := 0) (negLog := negLog) hfl hok hgr
      (by rw [hlen]; exact hB) ds hl hd hinv (s := ⟨ms, Interactions.probabilityTable ms.procs, 0⟩)
      (t := ⟨ms, Interactions.probabilityTable ms.procs, 0⟩) ⟨rfl, rfl, le_rfl, by simp⟩ rfl
    rw [Nat.zero_add] at this
    exact this

/-- The random numbers of a generator whose fractions have `m` bits. -/
theorem onBits_canonical {t : RngType} (ht : t.values ^ t.calls = 2 ^ m) {g : List Nat} (hlen : g.length = t.calls)
    (hg : ∀ d ∈ g, d < t.values) : OnBits m (canonical t.values g : ℚ) := by
  obtain ⟨j, hj, he, -, -⟩ := C57_grid (K := ℚ) t g hlen hg
  rw [ht] at hj
  refine ⟨j, hj.le, ?_⟩
  rw [he, ht]
  push_cast
  rfl

/-- **C55** (partial: as above) With the default generator, whose fractions have 32 bits, the condition is that the number of processes
times the number of sites times `B` is at most `2 ^ 21`, about two millions. -/
theorem C55_default_generator_partial (hfl : Rounding fl) (h : WellFormed env n nT cfg procs)
    (hcu : env.useCustomRates = true → CustomRatesOk env n nT cfg procs) (hg : Matcher.RatesOnGrid e B env procs) (hne : procs ≠ [])
    (hB : procs.length * (n * B) ≤ 2 ^ 21) (ds : List (Draws ℚ))
    (hl : ∀ d ∈ ds, ∀ u ∈ d.time, ∀ l, negLog u = some l → 0 ≤ l)
    (hd : ∀ d ∈ ds, ∃ g g' : List Nat, g.length = RngType.calls .MT ∧ (∀ x ∈ g, x < RngType.values .MT) ∧
      g'.length = RngType.calls .MT ∧ (∀ x ∈ g', x < RngType.values .MT) ∧
      d.process = canonical (RngType.values .MT) g ∧ d.site = canonical (RngType.values .MT) g') :
    Both (SameButTime ds.length) (Rounded.init fl env cfg procs >>= Rounded.run fl env negLog ds)
      (LatticeModel.init env cfg procs >>= LatticeModel.run env negLog ds) := by
  refine C55_same_events_partial (m := 32) hfl h hcu hg hne ?_ ds hl ?_
  · calc procs.length * (n * B) * 2 ^ 32 ≤ 2 ^ 21 * 2 ^ 32 := Nat.mul_le_mul_right _ hB
      _ = 2 ^ 53 := by norm_num
  · intro d hd'
    obtain ⟨g, g', h1, h2, h3, h4, h5, h6⟩ := hd d hd'
    rw [h5, h6]
    exact ⟨onBits_canonical C57_bits.1 h1 h2, onBits_canonical C57_bits.1 h3 h4⟩

/-- **C55** is false without the last condition: two processes with rates that are integers, with a sum below `2 ^ 53`, so that all totals
are exact. With one of the random numbers of the default generator the second process is selected, but the first one if the product is
rounded. -/
theorem C55_other_event :
    pickProcessIndex (probabilityTable [sampleProc 0 (2 ^ 53 - 1 - 2 ^ 21 : ℚ) [3], sampleProc 1 (2 ^ 21) [5]])
      (canonical (RngType.values .MT) [2 ^ 32 - 1]) = .ok 1 ∧
    Rounded.pickProcessIndex toDouble
      (Rounded.probabilityTable toDouble [sampleProc 0 (2 ^ 53 - 1 - 2 ^ 21 : ℚ) [3], sampleProc 1 (2 ^ 21) [5]])
      (canonical (RngType.values .MT) [2 ^ 32 - 1]) = .ok 0 := by decide +kernel

/-! ### Non-vacuity -/

/-- Two events on a ring of four sites, with doubles and with random numbers of the default generator. -/
example : ∃ (cfg : Config ℚ) (procs : List (Proc ℚ)) (s t : Sim ℚ),
    (Rounded.init toDouble (Sample.env Sample.ring) cfg procs >>= Rounded.run toDouble (Sample.env Sample.ring) Sample.lg
      [Sample.half, Sample.half]) = .ok s ∧
    (LatticeModel.init (Sample.env Sample.ring) cfg procs >>= LatticeModel.run (Sample.env Sample.ring) Sample.lg
      [Sample.half, Sample.half]) = .ok t ∧ SameButTime 2 s t ∧ t.ms.procs.map (·.sites) = [[2], [2]] ∧ t.time ≠ 0 := by
  obtain ⟨cfg, ps, t, h1, h2, h3, -⟩ := Sample.good_run (env := Sample.env Sample.ring) (P := Sample.ring) (els := Sample.ringElements)
    (procs := Sample.hops) (ds := [Sample.half, Sample.half])
    (f := fun s => (s.ms.procs.map (·.sites), decide (s.time ≠ 0)))
    (b := ([[2], [2]], true)) 4
    (by decide +kernel) rfl (by decide +kernel) (by decide +kernel)
  obtain ⟨s', hs', ht⟩ := Sample.exists_of_map (x := Sample.go (Sample.env Sample.ring) Sample.ring Sample.ringElements Sample.hops
    [Sample.half, Sample.half]) (f := fun s => (s.ms.procs.map (·.sites), decide (s.time ≠ 0)))
    (b := ([[2], [2]], true)) (by decide +kernel)
  simp only [Prod.mk.injEq, decide_eq_true_eq] at ht
  unfold Sample.go at hs'
  rw [h1, ok_bind, h2, ok_bind] at hs'
  have hrate : Sample.hops.map (fun ps => ps.map (·.rate)) = .ok [2, 1] := by decide +kernel
  rw [h2] at hrate
  have hrate : ps.map (·.rate) = [2, 1] := Except.ok.inj hrate
  have hlen : ps.length = 2 := by rw [← List.length_map (f := (·.rate)), hrate]; rfl
  have key := C55_default_generator_partial (e := 0) (B := 2) (negLog := Sample.lg) toDouble_rounding h3.input h3.custom
    ⟨?_, fun h => (by cases h)⟩ (by rintro rfl; cases hlen) (by rw [hlen]; norm_num) [Sample.half, Sample.half] ?_ ?_
  · rcases key with ⟨f, -, k2⟩ | ⟨a, b, k1, k2, k3⟩
    · rw [hs'] at k2
      cases k2
    · rw [hs'] at k2
      obtain rfl := Except.ok.inj k2
      exact ⟨cfg, ps, a, s', k1, hs', k3, ht⟩
  · intro p hp
    have : p.rate ∈ [(2 : ℚ), 1] := by rw [← hrate]; exact List.mem_map_of_mem hp
    simp only [List.mem_cons, List.not_mem_nil, or_false] at this
    rcases this with h | h
    · exact ⟨2, le_rfl, by rw [h]; norm_num⟩
    · exact ⟨1, by norm_num, by rw [h]; norm_num⟩
  · intro d hd u hu l hl
    have hd : d = Sample.half := by simpa using hd
    subst hd
    have hu : u = 1 / 2 := by simpa [Sample.half] using hu
    subst hu
    have hl : some (1 / 2 : ℚ) = some l := by rw [← hl]; decide +kernel
    obtain rfl := Option.some.inj hl
    norm_num
  · intro d hd
    have hd : d = Sample.half := by simpa using hd
    subst hd
    exact ⟨[2 ^ 31], [2 ^ 31], by decide, by decide, by decide, by decide, by decide +kernel, by decide +kernel⟩

end KMC
