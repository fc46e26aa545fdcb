import Verif.Props.Schedule
import Mathlib.Algebra.Order.Field.Rat
import Mathlib.Tactic.Ring
import Mathlib.Tactic.Linarith

/-!
# C44: dumping at equidistant times

`C44_multiples_partial`: when the run starts at time zero and no time step is longer than the interval, the
frames after the first one are, in order, one for each multiple of the interval that is reached, and each shows
the configuration in force at that time. `C44_late` and `C44_second_run` show what happens otherwise.
`C42_model` and `C44_model_partial` put the model of the C++ code in the place of the backend.
-/

namespace KMC
open PyRun

section
variable {σ K : Type} [Field K] [LinearOrder K] [IsStrictOrderedRing K]

theorem map_range_congr {α : Type _} {n : Nat} {f g : Nat → α} (h : ∀ i, i < n → f i = g i) :
    (List.range n).map f = (List.range n).map g :=
  List.map_congr_left fun i hi => h i (List.mem_range.1 hi)

/-- C44. The run starts at time zero, time does not decrease, no step is longer than the interval `D`, and events do
not change the time. Then the frames are the initial one and one for each multiple `1·D … J·D` reached: the
multiple `(j+1)·D` lies after the time of state `ks j` and not after that of the next state, and the frame shows
state number `ks j` with its step and time. -/
theorem C44_multiples_partial (B : Backend σ K) (o : Outside σ K) (c : PyControl K) (s s' : σ) (log : List (Call σ K)) (D : K)
    (ht : c.dumpTime = some D) (htr : o.trajectory = true) (h : main B o c s [] = (.ok s', log))
    (h0 : B.time s = 0) (hD : 0 < D)
    (hclock : ∀ x y, B.single x = .ok y → B.time y = B.time x)
    (hstep : ∀ m st mid, History B s m st mid → ∀ k, k < m →
      B.time (st k) ≤ B.time (mid k) ∧ B.time (mid k) ≤ B.time (st k) + D) :
    ∃ (m J : Nat) (st mid : Nat → σ) (ks : Nat → Nat), m ≤ c.steps ∧ History B s m st mid ∧ s' = st m ∧
      log.filterMap Call.frame? = (0, 0, s) :: (List.range J).map (fun j => (ks j, B.time (st (ks j)), mid (ks j))) ∧
      (∀ j, j < J → ks j < m ∧ B.time (st (ks j)) < (j + 1 : Nat) * D ∧ (j + 1 : Nat) * D ≤ B.time (st (ks j + 1))) ∧
      J * D ≤ B.time (st m) ∧ B.time (st m) < (J + 1 : Nat) * D := by
  obtain ⟨-, l, body, h1, h2, rfl⟩ := main_ok h
  obtain ⟨m, d, ls, mid, asked, stop, a1, a2, a3, a4, a5, a6, a7, a8, a9, a10, a11, a12⟩ := loop_calls h1
  have hs := hstep m _ mid a2
  -- the frames of step `i`
  let f : Nat → List (Nat × K × σ) := fun i =>
    if D ≤ B.time (mid i) - (ls i).lastTime then [(i, B.time (ls i).state, mid i)] else []
  have key : ∀ i, i ≤ m → ∃ ks : Nat → Nat,
      (List.range i).flatMap f = (List.range (ls i).timeStep).map (fun j => (ks j, B.time (ls (ks j)).state, mid (ks j))) ∧
      (∀ j, j < (ls i).timeStep → ks j < i ∧ B.time (ls (ks j)).state < (j + 1 : Nat) * D ∧
        (j + 1 : Nat) * D ≤ B.time (ls (ks j + 1)).state) ∧
      (ls i).lastTime = (ls i).timeStep * D ∧ (ls i).timeStep * D ≤ B.time (ls i).state ∧
      B.time (ls i).state < ((ls i).timeStep + 1 : Nat) * D := by
    intro i
    induction i with
    | zero =>
      intro _
      refine ⟨fun _ => 0, ?_, ?_, ?_, ?_, ?_⟩ <;> simp [a4, h0, hD]
    | succ i ih =>
      intro hi
      obtain ⟨ks, b1, b2, b3, b4, b5⟩ := ih (by omega)
      obtain ⟨c1, c2⟩ := a8 i (by omega) D ht
      obtain ⟨d1, d2⟩ := hs i (by omega)
      have d3 : B.time (ls (i + 1)).state = B.time (mid i) := hclock _ _ (a2.event i (by omega))
      rw [List.range_succ, List.flatMap_append, b1]
      simp only [List.flatMap_cons, List.flatMap_nil, List.append_nil]
      push_cast at b5
      by_cases hg : D ≤ B.time (mid i) - (ls i).lastTime
      · obtain ⟨e1, e2⟩ := c1 hg
        rw [e1, e2]
        refine ⟨fun j => if j = (ls i).timeStep then i else ks j, ?_, ?_, rfl, ?_, ?_⟩
        · rw [List.range_succ, List.map_append]
          simp only [f, if_pos hg, List.map_cons, List.map_nil, if_true]
          congr 1
          refine map_range_congr fun j hj => ?_
          rw [if_neg (by omega)]
        · intro j hj
          by_cases hj' : j = (ls i).timeStep
          · simp only [hj', if_true, d3]
            rw [b3] at hg
            push_cast
            exact ⟨by omega, b5, by linarith⟩
          · simp only [if_neg hj']
            obtain ⟨g1, g2, g3⟩ := b2 j (by omega)
            exact ⟨by omega, g2, g3⟩
        · rw [d3]; rw [b3] at hg; push_cast; linarith
        · rw [d3]; push_cast; linarith
      · obtain ⟨e1, e2⟩ := c2 hg
        rw [e1, e2]
        refine ⟨ks, ?_, ?_, b3, ?_, ?_⟩
        · simp only [f, if_neg hg, List.append_nil]
        · intro j hj
          obtain ⟨g1, g2, g3⟩ := b2 j hj
          exact ⟨by omega, g2, g3⟩
        · rw [d3]; linarith
        · rw [d3]; rw [b3] at hg; push_cast; linarith
  obtain ⟨ks, b1, b2, b3, b4, b5⟩ := key m le_rfl
  refine ⟨m, (ls m).timeStep, fun i => (ls i).state, mid, ks, a1, a2, ?_, ?_, b2, b4, b5⟩
  · show s' = (ls m).state
    rw [a3]; exact h2.symm
  · rw [List.filterMap_append, List.filterMap_append, opening_frame, closing_none _ _ rfl (fun _ => rfl), List.append_nil,
      a7, filterMap_range_flatMap m Call.frame? _ f]
    · rw [b1, if_pos htr, h0]
      rfl
    · intro i hi
      obtain ⟨rest, e, -⟩ := a9 i hi
      unfold stepCalls
      rw [List.filterMap_append, List.filterMap_cons_none rfl, List.filterMap_append, List.filterMap_append,
        registerCalls_none _ _ _ _ _ _ (fun _ => rfl), asked_none e _ (fun _ => rfl)]
      simp only [beforeCalls, afterCalls, ht, htr, and_true, f]
      by_cases h3 : D ≤ B.time (mid i) - (ls i).lastTime
      · rw [if_pos h3, if_pos h3]; rfl
      · rw [if_neg h3, if_neg h3]; rfl

end

/-- Time steps 1/2, 1/2, 1, 1/4 and interval 1: frames for the multiples 1 and 2, at steps 1 and 2. -/
example : (main Sample.clock Sample.quiet (Sample.control 3 none (some 1)) ([1/2, 1/2, 1, 1/4], 0) []).1 = .ok ([1/4], 2) ∧
    (main Sample.clock Sample.quiet (Sample.control 3 none (some 1)) ([1/2, 1/2, 1, 1/4], 0) []).2.filterMap Call.frame? =
      [(0, 0, ([1/2, 1/2, 1, 1/4], 0)), (1, 1/2, ([1/2, 1, 1/4], 1)), (2, 1, ([1, 1/4], 2))] := by
  refine ⟨?_, ?_⟩ <;> decide +kernel

/-- C44. A step that passes two multiples: the first step goes from 0 to 5/2, past 1 and 2. The frame for the second
multiple is only written in the next step, and it shows the state after the first event, which was not in force
at time 2. -/
theorem C44_late :
    (main Sample.clock Sample.quiet (Sample.control 2 none (some 1)) ([5/2, 1/10, 1], 0) []).2.filterMap Call.frame? =
      [(0, 0, ([5/2, 1/10, 1], 0)), (0, 0, ([5/2, 1/10, 1], 5/2)), (1, 5/2, ([1/10, 1], 13/5))] := by
  decide +kernel

/-- C44. A run that starts at time 10, as second runs of a model do: after the first frame one interval later there is
a frame in every step, though each step is only half an interval. -/
theorem C44_second_run :
    (main Sample.clock (Sample.raising fun _ => false) (Sample.control 5 none (some 1)) (List.replicate 6 (1/2), 10) []).2.filterMap
        (fun c => (Call.frame? c).map (fun f => (f.1, f.2.1))) =
      [(0, 10), (1, 21/2), (2, 11), (3, 23/2), (4, 12)] := by
  decide +kernel

/-! ### The model of the C++ code as backend -/

section
variable {K : Type} [Field K] [LinearOrder K]

theorem ofModel_propagate {env : Env K} {negLog : K → Option K} {x y : Sim K × List (LatticeModel.Draws K)}
    (h : (ofModel env negLog).propagate x = .ok y) :
    ∃ d ds, x.2 = d :: ds ∧ y.2 = x.2 ∧ LatticeModel.propagateTime negLog x.1 d.time = .ok y.1 := by
  obtain ⟨x, l⟩ := x
  cases l with
  | nil => cases h
  | cons d ds =>
    obtain ⟨s1, h1, h⟩ := bind_ok.1 h
    obtain rfl := Except.ok.inj h
    exact ⟨d, ds, rfl, rfl, h1⟩

theorem ofModel_single {env : Env K} {negLog : K → Option K} {x y : Sim K × List (LatticeModel.Draws K)}
    (h : (ofModel env negLog).single x = .ok y) :
    ∃ d, x.2 = d :: y.2 ∧ LatticeModel.singleStep env x.1 d.process d.site = .ok y.1 := by
  obtain ⟨x, l⟩ := x
  cases l with
  | nil => cases h
  | cons d ds =>
    obtain ⟨s1, h1, h⟩ := bind_ok.1 h
    obtain rfl := Except.ok.inj h
    exact ⟨d, rfl, h1⟩

theorem propagateTime_parts {negLog : K → Option K} {x y : Sim K} {u : List K}
    (h : LatticeModel.propagateTime negLog x u = .ok y) : y.ms = x.ms ∧ y.table = x.table := by
  unfold LatticeModel.propagateTime at h
  obtain ⟨r, -, h⟩ := bind_ok.1 h
  obtain ⟨dt, -, h⟩ := bind_ok.1 h
  obtain rfl := Except.ok.inj h
  exact ⟨rfl, rfl⟩

theorem singleStep_time {env : Env K} {x y : Sim K} {u v : K}
    (h : LatticeModel.singleStep env x u v = .ok y) : y.time = x.time := by
  unfold LatticeModel.singleStep at h
  obtain ⟨e, -, h⟩ := bind_ok.1 h
  obtain ⟨ms1, -, h⟩ := bind_ok.1 h
  obtain ⟨ms2, -, h⟩ := bind_ok.1 h
  obtain rfl := Except.ok.inj h
  rfl

/-- C42. With the model of the C++ code as backend the states of a run of the front end are those of the run of the
back end: after `k` steps the state is that of `LatticeModel.run` with the first `k` groups of random numbers,
and the frame taken before an event shows the state before the event up to the time. -/
theorem C42_model (env : Env K) (negLog : K → Option K) (s : Sim K) (ds : List (LatticeModel.Draws K)) (m : Nat)
    (st mid : Nat → Sim K × List (LatticeModel.Draws K)) (h : History (ofModel env negLog) (s, ds) m st mid) :
    m ≤ ds.length ∧
    (∀ k, k ≤ m → LatticeModel.run env negLog (ds.take k) s = .ok (st k).1 ∧ (st k).2 = ds.drop k) ∧
    (∀ k, k < m → (mid k).1.ms = (st k).1.ms ∧ (st (k + 1)).1.time = (mid k).1.time) := by
  have hrun : ∀ k, k ≤ m → LatticeModel.run env negLog (ds.take k) s = .ok (st k).1 ∧ (st k).2 = ds.drop k ∧ k ≤ ds.length := by
    intro k
    induction k with
    | zero => intro _; rw [h.start]; exact ⟨rfl, rfl, Nat.zero_le _⟩
    | succ k ih =>
      intro hk
      obtain ⟨i1, i2, i3⟩ := ih (by omega)
      obtain ⟨d, dl, e1, e2, e3⟩ := ofModel_propagate (h.clock k (by omega))
      obtain ⟨d', e4, e5⟩ := ofModel_single (h.event k (by omega))
      rw [e2, e1] at e4
      obtain ⟨rfl, rfl⟩ := List.cons.inj e4
      rw [i2] at e1
      have hlt : k < ds.length := by
        by_contra hge
        rw [List.drop_eq_nil_of_le (by omega)] at e1
        cases e1
      have e6 : ds[k] = d ∧ ds.drop (k + 1) = (st (k + 1)).2 := by
        rw [List.drop_eq_getElem_cons hlt] at e1
        exact List.cons.inj e1
      refine ⟨?_, e6.2.symm, by omega⟩
      rw [List.take_succ_eq_append_getElem hlt, LatticeModel.run, loopM_append]
      refine bind_ok.2 ⟨(st k).1, i1, ?_⟩
      rw [loopM_cons]
      refine bind_ok.2 ⟨(st (k + 1)).1, ?_, rfl⟩
      rw [e6.1]
      exact bind_ok.2 ⟨_, e3, e5⟩
  refine ⟨(hrun m le_rfl).2.2, fun k hk => ⟨(hrun k hk).1, (hrun k hk).2.1⟩, ?_⟩
  intro k hk
  obtain ⟨d, dl, e1, e2, e3⟩ := ofModel_propagate (h.clock k hk)
  obtain ⟨d', e4, e5⟩ := ofModel_single (h.event k hk)
  exact ⟨(propagateTime_parts e3).1, singleStep_time e5⟩

/-- C44 for the model of the C++ code: the frame of a multiple of the interval shows the configuration in force at
that time, which is that of the run of the back end after `ks j` steps. -/
theorem C44_model_partial [IsStrictOrderedRing K] (env : Env K) (negLog : K → Option K) (s : Sim K) (ds : List (LatticeModel.Draws K))
    (o : Outside (Sim K × List (LatticeModel.Draws K)) K) (c : PyControl K)
    (s' : Sim K × List (LatticeModel.Draws K)) (log : List (Call (Sim K × List (LatticeModel.Draws K)) K)) (D : K)
    (ht : c.dumpTime = some D) (htr : o.trajectory = true) (h : main (ofModel env negLog) o c (s, ds) [] = (.ok s', log))
    (h0 : s.time = 0) (hD : 0 < D)
    (hstep : ∀ k x d y, LatticeModel.run env negLog (ds.take k) s = .ok x → ds[k]? = some d →
      LatticeModel.propagateTime negLog x d.time = .ok y → x.time ≤ y.time ∧ y.time ≤ x.time + D) :
    ∃ (m J : Nat) (st : Nat → Sim K) (ks : Nat → Nat), m ≤ c.steps ∧ s'.1 = st m ∧
      (∀ k, k ≤ m → LatticeModel.run env negLog (ds.take k) s = .ok (st k)) ∧
      (log.filterMap Call.frame?).map (fun f => (f.1, f.2.1, f.2.2.1.ms)) = (0, 0, s.ms) ::
        (List.range J).map (fun j => (ks j, (st (ks j)).time, (st (ks j)).ms)) ∧
      (∀ j, j < J → ks j < m ∧ (st (ks j)).time < (j + 1 : Nat) * D ∧ (j + 1 : Nat) * D ≤ (st (ks j + 1)).time) ∧
      J * D ≤ (st m).time ∧ (st m).time < (J + 1 : Nat) * D := by
  obtain ⟨m, J, st, mid, ks, g1, g2, g3, g4, g5, g6, g7⟩ := C44_multiples_partial (ofModel env negLog) o c (s, ds) s' log D ht htr h
    h0 hD (by
      intro x y hxy
      obtain ⟨d, -, e⟩ := ofModel_single hxy
      exact singleStep_time e) (by
      intro m st mid hh k hk
      obtain ⟨d, dl, e1, e2, e3⟩ := ofModel_propagate (hh.clock k hk)
      obtain ⟨r1, r2, -⟩ := C42_model env negLog s ds m st mid hh
      obtain ⟨r3, r4⟩ := r2 k (by omega)
      refine hstep k (st k).1 d (mid k).1 r3 ?_ e3
      rw [r4] at e1
      have := congrArg (fun l => l[0]?) e1
      simpa using this)
  obtain ⟨r1, r2, r3⟩ := C42_model env negLog s ds m st mid g2
  refine ⟨m, J, fun k => (st k).1, ks, g1, by rw [g3], fun k hk => (r2 k hk).1, ?_, g5, g6, g7⟩
  rw [g4, List.map_cons, List.map_map]
  congr 1
  refine map_range_congr fun j hj => ?_
  show (ks j, (st (ks j)).1.time, (mid (ks j)).1.ms) = _
  rw [(r3 (ks j) (g5 j hj).1).1]

end

end KMC
