import Verif.Props.Rounded
import Verif.Props.Symmetric

/-!
# C55: how far the stored total rates drift along a run

For processes with constant rates. The stored total rate of a process is changed by additions and subtractions, each with a rounding
error. Here the errors are added up along a run, and it is shown what they can do to the selection: the same process and the same site
are selected as in exact arithmetic, except for random numbers close to a border between two of them.
-/

set_option linter.unusedSectionVars false

namespace KMC

open LatticeModel Interactions Matcher

/-- One rounding error. -/
def ulp : ℚ := 1 + 1 / 2 ^ 53

theorem ulp_ge : 1 ≤ ulp := by unfold ulp; norm_num

theorem ulp_pow_ge (k : Nat) : 1 ≤ ulp ^ k := one_le_pow₀ ulp_ge

theorem ulp_pow_mono {k l : Nat} (h : k ≤ l) : ulp ^ k ≤ ulp ^ l := pow_le_pow_right₀ ulp_ge h

/-- A process with a constant rate, whose stored total rate has an error of at most `k` roundings of numbers up to `n` times the rate. -/
structure Drifted (n k : Nat) (p : Proc ℚ) : Prop where
  constant : p.custom = false
  double : IsDouble p.rate
  nonneg : 0 ≤ p.rate
  ones : ∀ m ∈ p.siteMult, m = 1
  mults : p.siteMult.length = p.sites.length
  close : |p.totalRate - p.sites.length * p.rate| ≤ n * p.rate * (ulp ^ k - 1)

namespace Drifted
variable {fl : ℚ → ℚ} {n k : Nat} {p : Proc ℚ}

theorem mono (h : Drifted n k p) {l : Nat} (hl : k ≤ l) : Drifted n l p :=
  ⟨h.constant, h.double, h.nonneg, h.ones, h.mults, h.close.trans (mul_le_mul_of_nonneg_left (sub_le_sub_right (ulp_pow_mono hl) _)
    (mul_nonneg (Nat.cast_nonneg _) h.nonneg))⟩

/-- One more rounding. -/
theorem next (hfl : Rounding fl) {N t w w' x : ℚ} (h1 : |t - w| ≤ N * (ulp ^ k - 1)) (h2 : |w'| ≤ N)
    (h3 : x - t = w' - w) : |fl x - w'| ≤ N * (ulp ^ (k + 1) - 1) := by
  have h4 := hfl.error x
  have h5 : |x - w'| ≤ N * (ulp ^ k - 1) := by
    rw [show x - w' = t - w by linarith]
    exact h1
  have h6 : |x| ≤ N * ulp ^ k := by
    rw [show x = w' + (x - w') by ring]
    refine (abs_add_le _ _).trans ((add_le_add h2 h5).trans (le_of_eq ?_))
    ring
  have h7 : |fl x - w'| ≤ |fl x - x| + |x - w'| := by
    rw [show fl x - w' = (fl x - x) + (x - w') by ring]
    exact abs_add_le _ _
  refine h7.trans ((add_le_add (h4.trans (div_le_div_of_nonneg_right h6 (by positivity))) h5).trans (le_of_eq ?_))
  rw [pow_succ]
  unfold ulp
  ring

theorem add (hfl : Rounding fl) (h : Drifted n k p) (hn : p.sites.length + 1 ≤ n) (site : Nat) (rate : ℚ) :
    Drifted n (k + 1) (Rounded.addSite fl p site rate 1) := by
  have he : Rounded.addSite fl p site rate 1 =
      { p with sites := p.sites ++ [site], siteMult := p.siteMult ++ [1], totalRate := fl (p.totalRate + fl (1 * p.rate)) } := by
    unfold Rounded.addSite
    rw [h.constant]
    rfl
  rw [he]
  refine ⟨h.constant, h.double, h.nonneg, ?_, by simp [h.mults], ?_⟩
  · intro m hm
    rcases List.mem_append.1 hm with h' | h'
    · exact h.ones m h'
    · simpa using h'
  · dsimp only
    rw [one_mul, hfl.self h.double, List.length_append, List.length_singleton]
    refine next hfl h.close ?_ (by push_cast; ring)
    rw [abs_of_nonneg (mul_nonneg (Nat.cast_nonneg _) h.nonneg)]
    exact mul_le_mul_of_nonneg_right (by exact_mod_cast hn) h.nonneg

theorem remove (hfl : Rounding fl) (h : Drifted n k p) (hn : p.sites.length ≤ n) {site : Nat} {p' : Proc ℚ}
    (hrem : Rounded.removeSite fl p site = .ok p') : Drifted n (k + 1) p' ∧ p'.sites.length + 1 = p.sites.length := by
  unfold Rounded.removeSite at hrem
  split at hrem
  · cases hrem
  · rename_i i hi
    rw [h.constant] at hrem
    simp only [Bool.false_eq_true, if_false] at hrem
    obtain ⟨a, ha, hrem⟩ := bind_ok.1 hrem
    obtain ⟨c, hc, hrem⟩ := bind_ok.1 hrem
    obtain rfl := Except.ok.inj hrem
    obtain ⟨hi', -, -, la, -⟩ := swapPop_split ha
    obtain ⟨-, -, pc, lc, -⟩ := swapPop_split hc
    have hlen : a.2.length + 1 = p.sites.length := by omega
    refine ⟨⟨rfl, h.double, h.nonneg, fun m hm => h.ones m (pc.mem_iff.2 (by simp [show m ∈ c.2 from hm])), ?_, ?_⟩, hlen⟩
    · show c.2.length = a.2.length
      rw [lc, la, h.mults]
    · dsimp only
      rw [h.ones c.1 (pc.mem_iff.2 (by simp)), one_mul, hfl.self h.double]
      refine next hfl h.close ?_ (by rw [← hlen]; push_cast; ring)
      rw [abs_of_nonneg (mul_nonneg (Nat.cast_nonneg _) h.nonneg)]
      exact mul_le_mul_of_nonneg_right (by exact_mod_cast (by omega)) h.nonneg

end Drifted

namespace Rounded
variable {fl : ℚ → ℚ} {n k j : Nat} {p : Proc ℚ}

theorem modify_at {procs procs' : List (Proc ℚ)} {i : Nat} {f : Proc ℚ → M (Proc ℚ)} (h : modifyProc procs i f = .ok procs')
    (hp : procs[j]? = some p) : (i ≠ j ∧ procs'[j]? = some p) ∨ (i = j ∧ ∃ p', f p = .ok p' ∧ procs'[j]? = some p') := by
  unfold modifyProc at h
  obtain ⟨a, ha, h⟩ := bind_ok.1 h
  obtain ⟨b, hb, h⟩ := bind_ok.1 h
  obtain ⟨hi, rfl⟩ := wr_ok.1 h
  by_cases hij : i = j
  · subst hij
    rw [rd_ok.1 ha] at hp
    obtain rfl := Option.some.inj hp
    exact .inr ⟨rfl, b, hb, by rw [List.getElem?_set_self hi]⟩
  · exact .inl ⟨hij, by rw [List.getElem?_set_ne hij]; exact hp⟩

theorem removeLoop_drift (hfl : Rounding fl) (ts : List (Nat × Nat)) : ∀ {k : Nat} {p : Proc ℚ} {b b' : Book ℚ},
    loopM (removeTask fl) ts b = .ok b' → b.1[j]? = some p → Drifted n k p → p.sites.length ≤ n →
    ∃ p', b'.1[j]? = some p' ∧ Drifted n (k + ts.countP (·.2 = j)) p' ∧ p'.sites.length ≤ p.sites.length := by
  induction ts with
  | nil =>
    intro k p b b' h hp hd _
    obtain rfl := Except.ok.inj h
    exact ⟨p, hp, hd, le_rfl⟩
  | cons t ts ih =>
    intro k p b b' h hp hd hn
    rw [loopM_cons] at h
    obtain ⟨b1, h1, h⟩ := bind_ok.1 h
    unfold removeTask at h1
    obtain ⟨procs, h2, h1⟩ := bind_ok.1 h1
    obtain ⟨inv, -, h1⟩ := bind_ok.1 h1
    obtain rfl := Except.ok.inj h1
    rcases modify_at h2 hp with ⟨hij, hp1⟩ | ⟨hij, p1, hrem, hp1⟩
    · obtain ⟨p', g1, g2, g3⟩ := ih h hp1 hd hn
      refine ⟨p', g1, ?_, g3⟩
      rw [List.countP_cons_of_neg (by simpa using hij)]
      exact g2
    · obtain ⟨r1, r2⟩ := hd.remove hfl hn hrem
      obtain ⟨p', g1, g2, g3⟩ := ih h hp1 r1 (by omega)
      refine ⟨p', g1, ?_, by omega⟩
      rw [List.countP_cons_of_pos (by simpa using hij), show k + (ts.countP (·.2 = j) + 1) = k + 1 + ts.countP (·.2 = j) by omega]
      exact g2

theorem updateLoop_drift (hfl : Rounding fl) (ts : List (RateTask ℚ)) : ∀ {k : Nat} {p : Proc ℚ} {b b' : Book ℚ},
    loopM (updateTask fl) ts b = .ok b' → b.1[j]? = some p → Drifted n k p → p.sites.length ≤ n →
    ∃ p', b'.1[j]? = some p' ∧ Drifted n (k + 2 * ts.countP (·.process = j)) p' ∧ p'.sites.length = p.sites.length := by
  induction ts with
  | nil =>
    intro k p b b' h hp hd _
    obtain rfl := Except.ok.inj h
    exact ⟨p, hp, hd, rfl⟩
  | cons t ts ih =>
    intro k p b b' h hp hd hn
    rw [loopM_cons] at h
    obtain ⟨b1, h1, h⟩ := bind_ok.1 h
    unfold updateTask at h1
    obtain ⟨procs, h2, h1⟩ := bind_ok.1 h1
    obtain ⟨procs2, h3, h1⟩ := bind_ok.1 h1
    obtain rfl := Except.ok.inj h1
    rcases modify_at h2 hp with ⟨hij, hp1⟩ | ⟨hij, p1, hrem, hp1⟩
    · rcases modify_at h3 hp1 with ⟨-, hp2⟩ | ⟨hij', -⟩
      · obtain ⟨p', g1, g2, g3⟩ := ih h hp2 hd hn
        refine ⟨p', g1, ?_, g3⟩
        rw [List.countP_cons_of_neg (by simpa using hij)]
        exact g2
      · exact absurd hij' hij
    · obtain ⟨r1, r2⟩ := hd.remove hfl hn hrem
      rcases modify_at h3 hp1 with ⟨hij', -⟩ | ⟨-, p2, hadd, hp2⟩
      · exact absurd hij hij'
      · obtain rfl := Except.ok.inj hadd
        have r3 := r1.add hfl (by omega) t.index t.rate
        have hl : (Rounded.addSite fl p1 t.index t.rate 1).sites.length = p.sites.length := by
          rw [← r2]
          unfold Rounded.addSite
          split <;> simp
        obtain ⟨p', g1, g2, g3⟩ := ih h hp2 r3 (by rw [hl]; exact hn)
        refine ⟨p', g1, ?_, g3.trans hl⟩
        rw [List.countP_cons_of_pos (by simpa using hij),
          show k + 2 * (ts.countP (·.process = j) + 1) = k + 1 + 1 + 2 * ts.countP (·.process = j) by omega]
        exact g2

theorem addLoop_drift (hfl : Rounding fl) (ts : List (RateTask ℚ)) : ∀ {p : Proc ℚ} {b b' : Book ℚ},
    loopM (addTask fl) ts b = .ok b' → b.1[j]? = some p →
    ∃ p', b'.1[j]? = some p' ∧ p.sites.length ≤ p'.sites.length ∧
      ∀ k, Drifted n k p → p'.sites.length ≤ n → Drifted n (k + ts.countP (·.process = j)) p' := by
  induction ts with
  | nil =>
    intro p b b' h hp
    obtain rfl := Except.ok.inj h
    exact ⟨p, hp, le_rfl, fun k hd _ => hd⟩
  | cons t ts ih =>
    intro p b b' h hp
    rw [loopM_cons] at h
    obtain ⟨b1, h1, h⟩ := bind_ok.1 h
    unfold addTask at h1
    obtain ⟨procs, h2, h1⟩ := bind_ok.1 h1
    obtain ⟨inv, -, h1⟩ := bind_ok.1 h1
    obtain rfl := Except.ok.inj h1
    rcases modify_at h2 hp with ⟨hij, hp1⟩ | ⟨hij, p1, hadd, hp1⟩
    · obtain ⟨p', g1, g2, g3⟩ := ih h hp1
      refine ⟨p', g1, g2, fun k hd hn => ?_⟩
      rw [List.countP_cons_of_neg (by simpa using hij)]
      exact g3 k hd hn
    · obtain rfl := Except.ok.inj hadd
      have hl : (Rounded.addSite fl p t.index t.rate 1).sites.length = p.sites.length + 1 := by
        unfold Rounded.addSite
        split <;> simp
      obtain ⟨p', g1, g2, g3⟩ := ih h hp1
      refine ⟨p', g1, by omega, fun k hd hn => ?_⟩
      rw [List.countP_cons_of_pos (by simpa using hij), show k + (ts.countP (·.process = j) + 1) = k + 1 + ts.countP (·.process = j) by omega]
      exact g3 (k + 1) (hd.add hfl (by omega) t.index t.rate) hn

theorem updateProcesses_drift (hfl : Rounding fl) {tasks : Tasks ℚ} {b b' : Book ℚ} (h : updateProcesses fl tasks b = .ok b')
    (hp : b.1[j]? = some p) (hd : Drifted n k p) (hn : p.sites.length ≤ n) :
    ∃ p', b'.1[j]? = some p' ∧ (p'.sites.length ≤ n → Drifted n (k + 2 * (tasks.remove.countP (·.2 = j) +
      tasks.update.countP (·.process = j) + tasks.add.countP (·.process = j))) p') := by
  unfold updateProcesses at h
  obtain ⟨b1, h1, h⟩ := bind_ok.1 h
  obtain ⟨b2, h2, h3⟩ := bind_ok.1 h
  obtain ⟨p1, e1, e2, e3⟩ := removeLoop_drift hfl _ h1 hp hd hn
  obtain ⟨p2, f1, f2, f3⟩ := updateLoop_drift hfl _ h2 e1 e2 (by omega)
  obtain ⟨p3, g1, g2, g3⟩ := addLoop_drift (n := n) hfl _ h3 f1
  exact ⟨p3, g1, fun hn3 => (g3 _ f2 hn3).mono (by omega)⟩

/-- Every pair gives at most one task. -/
theorem sortTasks_count {s : MState ℚ} (pairs : List (Nat × Nat)) : ∀ {ts : List Nat} {tasks : Tasks ℚ},
    sortTasks s pairs ts = .ok tasks → tasks.remove.countP (·.2 = j) + tasks.update.countP (·.process = j) +
      tasks.add.countP (·.process = j) ≤ pairs.countP (·.2 = j) := by
  induction pairs with
  | nil =>
    intro ts tasks h
    unfold sortTasks at h
    obtain rfl := Except.ok.inj h
    simp
  | cons pair pairs ih =>
    intro ts tasks h
    cases ts with
    | nil => unfold sortTasks at h; cases h
    | cons t ts =>
      have htask : ∀ {task : RateTask ℚ}, rateTask s pair = .ok task → task.process = pair.2 := by
        intro task h
        unfold rateTask at h
        obtain ⟨_, -, h⟩ := bind_ok.1 h
        obtain ⟨_, -, h⟩ := bind_ok.1 h
        obtain ⟨_, -, h⟩ := bind_ok.1 h
        obtain rfl := Except.ok.inj h
        rfl
      unfold sortTasks at h
      split at h
      · obtain ⟨r, hr, h⟩ := bind_ok.1 h
        obtain rfl := Except.ok.inj h
        have := ih hr
        simp only [List.countP_cons, decide_eq_true_eq]
        omega
      · split at h
        · obtain ⟨task, ht, h⟩ := bind_ok.1 h
          obtain ⟨r, hr, h⟩ := bind_ok.1 h
          obtain rfl := Except.ok.inj h
          have := ih hr
          simp only [List.countP_cons, decide_eq_true_eq, htask ht]
          omega
        · split at h
          · obtain ⟨task, ht, h⟩ := bind_ok.1 h
            obtain ⟨r, hr, h⟩ := bind_ok.1 h
            obtain rfl := Except.ok.inj h
            have := ih hr
            simp only [List.countP_cons, decide_eq_true_eq, htask ht]
            omega
          · have := ih h
            simp only [List.countP_cons, decide_eq_true_eq]
            omega

/-- Every index gives at most one pair with a given process. -/
theorem collectPairs_count {L : LatticeMap} {procs : List (Proc ℚ)} (indices : List Nat) : ∀ {cfg : Config ℚ} {r : List (Nat × Nat) × Config ℚ},
    collectPairs L procs indices cfg = .ok r → r.1.countP (·.2 = j) ≤ indices.length := by
  induction indices with
  | nil =>
    intro cfg r h
    obtain rfl := Except.ok.inj h
    simp
  | cons i is ih =>
    intro cfg r h
    have hr : ∃ cfg1 r1, collectPairs L procs is cfg1 = .ok r1 ∧
        r = ((processesFor L procs i).map (fun j => (i, j)) ++ r1.1, r1.2) := by
      unfold collectPairs at h
      dsimp only at h
      split at h
      · obtain ⟨cfg1, -, h⟩ := bind_ok.1 h
        obtain ⟨r1, hr1, h⟩ := bind_ok.1 h
        exact ⟨cfg1, r1, hr1, (Except.ok.inj h).symm⟩
      · obtain ⟨cfg1, -, h⟩ := bind_ok.1 h
        obtain ⟨r1, hr1, h⟩ := bind_ok.1 h
        exact ⟨cfg1, r1, hr1, (Except.ok.inj h).symm⟩
    obtain ⟨cfg1, r1, hr1, rfl⟩ := hr
    have h1 := ih hr1
    have h2 : ((processesFor L procs i).map fun j => (i, j)).countP (·.2 = j) ≤ 1 := by
      rw [List.countP_map]
      have := List.nodup_iff_count_le_one.1 (processesFor_nodup L procs i) j
      rw [List.count] at this
      refine le_trans (le_of_eq ?_) this
      refine List.countP_congr fun x _ => ?_
      simp
    show (_ ++ r1.1).countP _ ≤ _
    rw [List.countP_append, List.length_cons]
    omega

theorem calculateMatching_drift (hfl : Rounding fl) {env : Env ℚ} (hc : env.useCustomRates = false) {s s' : MState ℚ} {indices : List Nat}
    (h : calculateMatching fl env s indices = .ok s') (hp : s.procs[j]? = some p) (hd : Drifted n k p) (hn : p.sites.length ≤ n) :
    ∃ p', s'.procs[j]? = some p' ∧ (p'.sites.length ≤ n → Drifted n (k + 2 * indices.length) p') := by
  unfold calculateMatching at h
  obtain ⟨c, h1, h⟩ := bind_ok.1 h
  obtain ⟨tasks, h2, h⟩ := bind_ok.1 h
  rw [hc] at h
  simp only [Bool.false_eq_true, if_false] at h
  obtain ⟨r, hr, h⟩ := bind_ok.1 h
  obtain rfl := Except.ok.inj hr
  obtain ⟨b, h3, h⟩ := bind_ok.1 h
  obtain rfl := Except.ok.inj h
  unfold matchPairs at h2
  obtain ⟨ts, -, h2⟩ := bind_ok.1 h2
  obtain ⟨p', g1, g2⟩ := updateProcesses_drift hfl h3 hp hd hn
  refine ⟨p', g1, fun hn' => (g2 hn').mono ?_⟩
  have e1 := sortTasks_count (j := j) _ h2
  have e2 := collectPairs_count (j := j) _ h1
  dsimp only at e1 e2 ⊢
  omega

end Rounded

/-! ### Along a run -/

variable {fl : ℚ → ℚ} {env : Env ℚ} {n nT : Nat} {negLog : ℚ → Option ℚ} {cfg : Config ℚ} {procs : List (Proc ℚ)}
variable {s : Sim ℚ}

theorem superset_length {L : LatticeMap} (hL : L.WF) (l : List Nat) (r : Nat) : (L.supersetNeighbourIndices l r).length ≤ L.nSites := by
  refine length_le_of_lt ((L.superset_sorted l r).imp fun h => h.ne) fun x hx => ?_
  obtain ⟨y, -, hy⟩ := (L.mem_superset l r x).1 hx
  exact (L.cellA_lt_iff hL x).1 ((L.mem_neighbourIndices_raw hL y x r).1 hy).2.2.2

theorem RoundedRun.step (h : RoundedRun fl env n nT negLog cfg procs s) {d : Draws ℚ} {s' : Sim ℚ}
    (hs : Rounded.step fl env negLog s d = .ok s') : RoundedRun fl env n nT negLog cfg procs s' := by
  obtain ⟨h1, h2, s0, ds, h3, h4⟩ := h
  refine ⟨h1, h2, s0, ds ++ [d], h3, ?_⟩
  unfold Rounded.run at h4 ⊢
  rw [loopM_append, h4, ok_bind, loopM_cons, hs, ok_bind]
  rfl

theorem RoundedRun.few (h : RoundedRun fl env n nT negLog cfg procs s) (hr : PositiveRates env procs)
    (hl : ∃ u, 0 < u ∧ u < 1 ∧ negLog u ≠ none) {j : Nat} {p : Proc ℚ} (hp : s.ms.procs[j]? = some p) : p.sites.length ≤ n := by
  obtain ⟨t, h1, h2⟩ := h.follow hr hl
  obtain ⟨q, hq, hpq⟩ := faded_get (MState.faded_procs h2) hp
  have e1 : p.sites = q.sites := (congrArg Proc.sites hpq :)
  rw [e1]
  exact length_le_of_lt ((C25_totals h1).1 q (List.mem_of_getElem? hq)).1 fun x hx => ((C24_available h1 hq x).1 hx).1

theorem RoundedRun.processes_length (h : RoundedRun fl env n nT negLog cfg procs s) (hr : PositiveRates env procs)
    (hl : ∃ u, 0 < u ∧ u < 1 ∧ negLog u ≠ none) : s.ms.procs.length = procs.length := by
  obtain ⟨t, h1, h2⟩ := h.follow hr hl
  have e := congrArg List.length (MState.faded_procs h2)
  rw [List.length_map, List.length_map] at e
  rw [e, h1.processes_length]

/-- Constant rates, each of them a `double`. -/
structure ConstantRates (env : Env ℚ) (procs : List (Proc ℚ)) : Prop where
  off : env.useCustomRates = false
  constant : ∀ p ∈ procs, p.custom = false
  double : ∀ p ∈ procs, IsDouble p.rate

/-- All stored total rates have an error of at most `k` roundings. -/
def AllDrifted (n k m : Nat) (ms : MState ℚ) : Prop := ∀ j < m, ∃ p, ms.procs[j]? = some p ∧ Drifted n k p

theorem Drifted.of_faded {k : Nat} {p q : Proc ℚ} (h : Drifted n k p) (hf : p.faded = q.faded) (ht : p.totalRate = q.totalRate) :
    Drifted n k q := by
  have e1 : p.custom = q.custom := (congrArg Proc.custom hf :)
  have e2 : p.rate = q.rate := (congrArg Proc.rate hf :)
  have e3 : p.sites = q.sites := (congrArg Proc.sites hf :)
  have e4 : p.siteMult = q.siteMult := (congrArg Proc.siteMult hf :)
  obtain ⟨a, b, c, d, e, f⟩ := h
  exact ⟨e1 ▸ a, e2 ▸ b, e2 ▸ c, e4 ▸ d, by rw [← e3, ← e4]; exact e, by rw [← ht, ← e2, ← e3]; exact f⟩

theorem init_drift (hfl : Rounding fl) (hin : WellFormed env n nT cfg procs) (hc : ConstantRates env procs) (hr : PositiveRates env procs)
    (hl : ∃ u, 0 < u ∧ u < 1 ∧ negLog u ≠ none) {s0 : Sim ℚ} (h0 : Rounded.init fl env cfg procs = .ok s0) :
    AllDrifted n (2 * n) procs.length s0.ms := by
  have hrun : RoundedRun fl env n nT negLog cfg procs s0 :=
    ⟨hin, fun h => (by rw [hc.off] at h; cases h), s0, [], h0, rfl⟩
  unfold Rounded.init at h0
  obtain ⟨ms, h1, h0⟩ := bind_ok.1 h0
  obtain rfl := Except.ok.inj h0
  unfold Rounded.initialMatching at h1
  obtain ⟨cfg1, h2, h1⟩ := bind_ok.1 h1
  obtain ⟨procs2, h3, h1⟩ := bind_ok.1 h1
  intro j hj
  have hpj : procs[j]? = some procs[j] := List.getElem?_eq_getElem hj
  have hmem : procs[j] ∈ procs := List.getElem_mem hj
  generalize procs[j] = p at hpj hmem
  have hcl : (clearMatching procs)[j]? = some p.clearSites := by
    unfold clearMatching
    rw [List.getElem?_map, hpj]
    rfl
  have hst : Drifted n 0 p.clearSites :=
    ⟨hc.constant p hmem, hc.double p hmem, (hr.constant p hmem).le, fun m hm => (by cases hm), rfl, by simp [Proc.clearSites]⟩
  obtain ⟨q, hq, hqd, hqs⟩ : ∃ q, procs2[j]? = some q ∧ Drifted n 0 q ∧ q.sites = [] := by
    unfold updateProcessMatchLists at h3
    split at h3
    · obtain rfl := Except.ok.inj h3
      exact ⟨_, hcl, hst, rfl⟩
    · obtain ⟨q, hq, hu⟩ := mapMM_getElem? h3 hcl
      refine ⟨q, hq, ?_⟩
      unfold updateMatchListOf at hu
      split at hu
      · obtain ⟨_, -, hu⟩ := bind_ok.1 hu
        obtain ⟨_, -, hu⟩ := bind_ok.1 hu
        obtain ⟨_, -, hu⟩ := bind_ok.1 hu
        obtain ⟨_, -, hu⟩ := bind_ok.1 hu
        obtain rfl := Except.ok.inj hu
        exact ⟨⟨hst.constant, hst.double, hst.nonneg, hst.ones, hst.mults, hst.close⟩, rfl⟩
      · obtain rfl := Except.ok.inj hu
        exact ⟨hst, rfl⟩
  obtain ⟨p', g1, g2⟩ := Rounded.calculateMatching_drift (n := n) hfl hc.off h1 hq hqd (by rw [hqs]; exact Nat.zero_le _)
  refine ⟨p', g1, (g2 (hrun.few hr hl g1)).mono ?_⟩
  rw [List.length_range, ((lists_of hin h2).shape).elements]
  omega

theorem step_drift (hfl : Rounding fl) (hc : ConstantRates env procs) (hr : PositiveRates env procs)
    (hl : ∃ u, 0 < u ∧ u < 1 ∧ negLog u ≠ none) {k : Nat} (h : RoundedRun fl env n nT negLog cfg procs s)
    (hd : AllDrifted n k procs.length s.ms) {d : Draws ℚ} {s' : Sim ℚ} (hs : Rounded.step fl env negLog s d = .ok s') :
    AllDrifted n (k + 2 * n) procs.length s'.ms := by
  have hrun := h.step hs
  unfold Rounded.step at hs
  obtain ⟨s1, h1, hs⟩ := bind_ok.1 hs
  obtain ⟨e1, -⟩ := Rounded.propagateTime_ok h1
  unfold Rounded.singleStep at hs
  obtain ⟨e, h2, hs⟩ := bind_ok.1 hs
  obtain ⟨ms1, h3, hs⟩ := bind_ok.1 hs
  obtain ⟨ms2, h4, hs⟩ := bind_ok.1 hs
  obtain rfl := Except.ok.inj hs
  rw [e1] at h2 h3
  intro j hj
  obtain ⟨p, hp, hdp⟩ := hd j hj
  have hfew := h.few hr hl hp
  obtain ⟨p1, p1', a1, a2, a3, -⟩ := Rounded.select_set h2
  obtain ⟨q, hq, hqd, hqs⟩ : ∃ q, e.2.2[j]? = some q ∧ Drifted n k q ∧ q.sites = p.sites := by
    rw [a3]
    by_cases hij : e.1 = j
    · subst hij
      rw [a1] at hp
      obtain rfl := Option.some.inj hp
      refine ⟨p1', by rw [List.getElem?_set_self (List.getElem?_eq_some_iff.1 a1).1], ?_, by rw [a2]⟩
      rw [a2]
      exact ⟨hdp.constant, hdp.double, hdp.nonneg, hdp.ones, hdp.mults, hdp.close⟩
    · exact ⟨p, by rw [List.getElem?_set_ne hij]; exact hp, hdp, rfl⟩
  unfold LatticeModel.performAt at h3
  obtain ⟨p2, b1, h3⟩ := bind_ok.1 h3
  obtain ⟨r, -, h3⟩ := bind_ok.1 h3
  obtain ⟨ps, b2, h3⟩ := bind_ok.1 h3
  obtain rfl := Except.ok.inj h3
  obtain ⟨b3, rfl⟩ := wr_ok.1 b2
  obtain ⟨q', hq', hqd', hqs'⟩ : ∃ q', (e.2.2.set e.1 { p2 with affected := r.2 })[j]? = some q' ∧ Drifted n k q' ∧ q'.sites = p.sites := by
    by_cases hij : e.1 = j
    · have b1' := rd_ok.1 b1
      dsimp only at b1'
      rw [hij, hq] at b1'
      obtain rfl := Option.some.inj b1'
      refine ⟨{ q with affected := r.2 }, by rw [← hij, List.getElem?_set_self b3], ?_, hqs⟩
      exact ⟨hqd.constant, hqd.double, hqd.nonneg, hqd.ones, hqd.mults, hqd.close⟩
    · exact ⟨q, by rw [List.getElem?_set_ne hij]; exact hq, hqd, hqs⟩
  unfold Rounded.rematch at h4
  obtain ⟨p3, -, h4⟩ := bind_ok.1 h4
  obtain ⟨p', g1, g2⟩ := Rounded.calculateMatching_drift hfl hc.off h4 hq' hqd' (by rw [hqs']; exact hfew)
  refine ⟨p', g1, (g2 (hrun.few hr hl g1)).mono ?_⟩
  have := superset_length h.input.lattice p3.affected (Interactions.maxRange (e.2.2.set e.1 { p2 with affected := r.2 }))
  rw [h.input.sites] at this
  exact Nat.add_le_add_left (Nat.mul_le_mul_left 2 this) k

theorem run_drift (hfl : Rounding fl) (hc : ConstantRates env procs) (hr : PositiveRates env procs)
    (hl : ∃ u, 0 < u ∧ u < 1 ∧ negLog u ≠ none) (ds : List (Draws ℚ)) : ∀ {k : Nat} {s s' : Sim ℚ},
    RoundedRun fl env n nT negLog cfg procs s → AllDrifted n k procs.length s.ms → Rounded.run fl env negLog ds s = .ok s' →
    AllDrifted n (k + ds.length * (2 * n)) procs.length s'.ms := by
  induction ds with
  | nil =>
    intro k s s' _ hd h
    obtain rfl := Except.ok.inj h
    simpa using hd
  | cons d ds ih =>
    intro k s s' hrun hd h
    unfold Rounded.run at h
    rw [loopM_cons] at h
    obtain ⟨s1, h1, h⟩ := bind_ok.1 h
    have := ih (hrun.step h1) (step_drift hfl hc hr hl hrun hd h1) h
    rw [List.length_cons, Nat.succ_mul, show k + (ds.length * (2 * n) + 2 * n) = k + 2 * n + ds.length * (2 * n) by omega]
    exact this

/-- C55 (partial: constant rates). After `N` events the stored total rate of a process differs from the number of its listed sites times
its rate by at most `n · rate · ((1 + 2 ^ -53) ^ (2 n (N + 1)) - 1)`, where `n` is the number of sites of the lattice. The errors add up,
no more. -/
theorem C55_drift_run_partial (hfl : Rounding fl) (hin : WellFormed env n nT cfg procs) (hc : ConstantRates env procs)
    (hr : PositiveRates env procs) (hl : ∃ u, 0 < u ∧ u < 1 ∧ negLog u ≠ none) {s0 : Sim ℚ} {ds : List (Draws ℚ)}
    (h0 : Rounded.init fl env cfg procs = .ok s0) (h1 : Rounded.run fl env negLog ds s0 = .ok s) :
    ∀ p ∈ s.ms.procs, |p.totalRate - p.sites.length * p.rate| ≤
      n * p.rate * ((1 + 1 / 2 ^ 53) ^ (2 * n * (ds.length + 1)) - 1) := by
  have hrun : RoundedRun fl env n nT negLog cfg procs s0 := ⟨hin, fun h => (by rw [hc.off] at h; cases h), s0, [], h0, rfl⟩
  have hrun' : RoundedRun fl env n nT negLog cfg procs s := ⟨hin, fun h => (by rw [hc.off] at h; cases h), s0, ds, h0, h1⟩
  have hd := run_drift hfl hc hr hl ds hrun (init_drift hfl hin hc hr hl h0) h1
  intro p hp
  obtain ⟨j, hj⟩ := List.mem_iff_getElem?.1 hp
  obtain ⟨p', hp', hd⟩ := hd j (by rw [← hrun'.processes_length hr hl]; exact (List.getElem?_eq_some_iff.1 hj).1)
  rw [hj] at hp'
  obtain rfl := Option.some.inj hp'
  have := hd.close
  rw [show 2 * n + ds.length * (2 * n) = 2 * n * (ds.length + 1) by ring] at this
  exact this

/-- A run on a ring in double precision with the rates `2` and `1`, to which the theorem applies. -/
example : ∃ (cfg : Config ℚ) (procs : List (Proc ℚ)) (s0 s : Sim ℚ) (ds : List (Draws ℚ)),
    WellFormed (Sample.env Sample.ring) 4 4 cfg procs ∧ ConstantRates (Sample.env Sample.ring) procs ∧
    PositiveRates (Sample.env Sample.ring) procs ∧ (∃ u, 0 < u ∧ u < 1 ∧ Sample.lg u ≠ none) ∧
    Rounded.init toDouble (Sample.env Sample.ring) cfg procs = .ok s0 ∧
    Rounded.run toDouble (Sample.env Sample.ring) Sample.lg ds s0 = .ok s ∧ s.ms.procs.map (·.sites) = [[2], [2]] := by
  obtain ⟨cfg, ps, s, -, h2, h3, h4, h5⟩ := Sample.good_double (P := Sample.ring) (els := Sample.ringElements)
    (procs := Sample.hops) (ds := [Sample.half, Sample.half]) (f := fun s => s.ms.procs.map (·.sites)) (b := [[2], [2]]) 4
    (by decide +kernel) (by decide +kernel) (by decide +kernel) (by decide +kernel)
  have hrate : Sample.hops.map (fun ps => ps.map fun p => (p.rate, p.custom)) = .ok [(2, false), (1, false)] := by decide +kernel
  rw [h2] at hrate
  have hrate : ps.map (fun p => (p.rate, p.custom)) = [(2, false), (1, false)] := Except.ok.inj hrate
  have hp : ∀ p ∈ ps, p.custom = false ∧ (p.rate = 2 ∨ p.rate = 1) := by
    intro p hp
    have : (p.rate, p.custom) ∈ [((2 : ℚ), false), (1, false)] := by
      rw [← hrate]
      exact List.mem_map_of_mem (f := fun p : Proc ℚ => (p.rate, p.custom)) hp
    simp only [List.mem_cons, Prod.mk.injEq, List.not_mem_nil, or_false] at this
    rcases this with h | h
    · exact ⟨h.2, .inl h.1⟩
    · exact ⟨h.2, .inr h.1⟩
  obtain ⟨s0, ds, a, b⟩ := h3.reached
  refine ⟨cfg, ps, s0, s, ds, h3.input, ⟨rfl, fun p h => (hp p h).1, fun p h => ?_⟩, h4, ⟨1 / 2, by norm_num, by norm_num, by decide +kernel⟩,
    a, b, h5⟩
  rcases (hp p h).2 with e | e
  · rw [e]
    have : toDouble 2 = 2 := by decide +kernel
    rw [← this]
    exact toDouble_rounding.isDouble _
  · rw [e]
    have : toDouble 1 = 1 := by decide +kernel
    rw [← this]
    exact toDouble_rounding.isDouble _

end KMC
