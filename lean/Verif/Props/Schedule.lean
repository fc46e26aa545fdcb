import Verif.Props.RunLoop

/-!
# Properties C42 and C43: the schedule of a run and the clean-up
-/

set_option linter.unusedSectionVars false

namespace KMC
open PyRun

section
variable {σ K : Type _}

/-- The states of `m` steps of the simulation from `s`: `st k` after `k` steps, `mid k` with the clock already
moved to the next event. -/
structure History (B : Backend σ K) (s : σ) (m : Nat) (st mid : Nat → σ) : Prop where
  start : st 0 = s
  possible : ∀ k, k < m → B.available (st k) ≠ 0
  clock : ∀ k, k < m → B.propagate (st k) = .ok (mid k)
  event : ∀ k, k < m → B.single (mid k) = .ok (st (k + 1))

/-- The frames in a list of calls. -/
def Call.frame? : Call σ K → Option (Nat × K × σ)
  | .frame k t s => some (k, t, s)
  | _ => none

/-- The events in a list of calls. -/
def Call.event? : Call σ K → Option (Nat × σ)
  | .event k s => some (k, s)
  | _ => none

/-- The calls of `registerStep` of analysis `a`. -/
def Call.register? (a : Nat) : Call σ K → Option (Nat × K × σ)
  | .register b k t s => if b = a then some (k, t, s) else none
  | _ => none

/-- The evaluations of breaker `b`. -/
def Call.evaluate? (b : Nat) : Call σ K → Option (Nat × K × σ)
  | .evaluate i k t s => if i = b then some (k, t, s) else none
  | _ => none

/-- The positive multiples of `d` up to `m`. -/
def multiples (d m : Nat) : List Nat := ((List.range m).map (· + 1)).filter (fun k => decide (d ∣ k))

theorem mem_multiples {d m k : Nat} : k ∈ multiples d m ↔ 0 < k ∧ k ≤ m ∧ d ∣ k := by
  unfold multiples
  rw [List.mem_filter, List.mem_map, decide_eq_true_eq]
  constructor
  · rintro ⟨⟨i, hi, rfl⟩, h⟩
    rw [List.mem_range] at hi
    exact ⟨by omega, by omega, h⟩
  · rintro ⟨h1, h2, h3⟩
    exact ⟨⟨k - 1, List.mem_range.2 (by omega), by omega⟩, h3⟩

theorem multiples_sorted (d m : Nat) : (multiples d m).Pairwise (· < ·) := by
  unfold multiples
  apply List.Pairwise.filter
  rw [List.pairwise_map]
  exact (List.pairwise_lt_range).imp (by intro a b h; omega)

theorem flatMap_ite {α β : Type _} (l : List α) (p : α → Prop) [DecidablePred p] (f : α → β) :
    l.flatMap (fun i => if p i then [f i] else []) = (l.filter (fun i => decide (p i))).map f := by
  induction l with
  | nil => rfl
  | cons a l ih =>
    rw [List.flatMap_cons, ih]
    by_cases h : p a <;> simp [h]

theorem flatMap_multiples {β : Type _} (m d : Nat) (f : Nat → β) :
    (List.range m).flatMap (fun i => if d ∣ i + 1 then [f (i + 1)] else []) = (multiples d m).map f := by
  rw [flatMap_ite (List.range m) (fun i => d ∣ i + 1) (fun i => f (i + 1))]
  unfold multiples
  rw [List.filter_map, List.map_map]
  rfl

variable [Field K] [LinearOrder K]

/-- The calls before the loop. -/
def opening (B : Backend σ K) (o : Outside σ K) (s : σ) : List (Call σ K) :=
  (if o.trajectory then [.openTrajectory, .frame 0 (B.time s) s] else []) ++
    (List.range o.analyses).map (fun a => .setup a (B.time s) s)

/-- The calls after the loop. -/
def closing (o : Outside σ K) : List (Call σ K) :=
  (if o.trajectory then [.flush] else []) ++ (List.range o.analyses).map (fun a => .finalize a)

/-- The parts of a run that ends properly. -/
theorem main_ok {B : Backend σ K} {o : Outside σ K} {c : PyControl K} {s s' : σ} {log : List (Call σ K)}
    (h : main B o c s [] = (.ok s', log)) :
    B.available s ≠ 0 ∧ ∃ l body, loop B o c c.steps 0 ⟨s, B.time s, 0⟩ (opening B o s) = (.ok l, opening B o s ++ body) ∧
      l.state = s' ∧ log = opening B o s ++ body ++ closing o := by
  unfold main at h
  obtain ⟨u, g1, h1, h⟩ := Act.bind_ok.1 h
  obtain ⟨l, g2, h2, h⟩ := Act.bind_ok.1 h
  obtain ⟨h3, h4⟩ := Act.pure_ok.1 h
  subst h4
  unfold prelude at h1
  split at h1
  · exact absurd (Act.lift_ok.1 h1).1 (by simp)
  rename_i hav
  have h1 := (Act.calls_ok.1 h1).1
  rw [List.nil_append] at h1
  unfold Act.tryFinally at h2
  split at h2
  · rename_i hclean
    simp only [Prod.mk.injEq] at h2
    obtain ⟨h2, rfl⟩ := h2
    unfold cleanUp at hclean
    have hc := (Act.calls_ok.1 hclean).1
    subst h1
    have hgrow : ∃ body, (loop B o c c.steps 0 ⟨s, B.time s, 0⟩ (opening B o s)).2 = opening B o s ++ body := by
      have hl : loop B o c c.steps 0 ⟨s, B.time s, 0⟩ (opening B o s) =
          (.ok l, (loop B o c c.steps 0 ⟨s, B.time s, 0⟩ (opening B o s)).2) := Prod.ext h2 rfl
      obtain ⟨m, ls, logs, stop, a1, a2, a3, a4, a5, a6, -⟩ := loop_ok hl
      have : ∀ i, i ≤ m → ∃ body, logs i = opening B o s ++ body := by
        intro i
        induction i with
        | zero => intro _; exact ⟨[], by rw [a3]; simp⟩
        | succ i ih =>
          intro hi
          obtain ⟨body, hb⟩ := ih (by omega)
          obtain ⟨s1, d, asked, rest, -, -, -, -, -, e, -⟩ := turn_ok (a6 i (by omega))
          rw [e, hb, List.append_assoc]
          exact ⟨_, rfl⟩
      obtain ⟨body, hb⟩ := this m (le_refl _)
      exact ⟨body, by rw [← a5]; exact hb⟩
    obtain ⟨body, hb⟩ := hgrow
    refine ⟨hav, l, body, ?_, h3, ?_⟩
    · exact Prod.ext h2 hb
    · rw [hc]
      exact congrArg (· ++ closing o) hb
  · simp at h2

/-- The calls of step `k`, with the breakers that were asked. -/
def stepCalls (B : Backend σ K) (o : Outside σ K) (c : PyControl K) (d : Nat) (st : Nat → σ) (pre asked : Nat → List (Call σ K))
    (i : Nat) : List (Call σ K) :=
  pre i ++ (.event (i + 1) (st (i + 1)) :: (afterCalls o c.dumpTime d (i + 1) (B.time (st (i + 1))) (st (i + 1)) ++
    (registerCalls o c.analyse (i + 1) (B.time (st (i + 1))) (st (i + 1)) ++ asked i)))

/-- The exact calls of a loop that ends properly. -/
theorem loop_calls {B : Backend σ K} {o : Outside σ K} {c : PyControl K} {s : σ} {l : Loop σ K} {log body : List (Call σ K)}
    {t0 : K} {j0 : Nat} (h : loop B o c c.steps 0 ⟨s, t0, j0⟩ log = (.ok l, log ++ body)) :
    ∃ (m d : Nat) (ls : Nat → Loop σ K) (mid : Nat → σ) (asked : Nat → List (Call σ K)) (stop : Nat → Bool), m ≤ c.steps ∧
      History B s m (fun i => (ls i).state) mid ∧ (ls m) = l ∧ ls 0 = ⟨s, t0, j0⟩ ∧
      (0 < m → c.dumpTime = none → c.dump = some d ∧ d ≠ 0) ∧ (0 < m → c.analyse ≠ 0) ∧
      body = (List.range m).flatMap (stepCalls B o c d (fun i => (ls i).state)
        (fun i => beforeCalls o c.dumpTime (i + 1) (ls i).lastTime (B.time (ls i).state) (B.time (mid i)) (mid i)) asked) ∧
      (∀ i, i < m → ∀ t, c.dumpTime = some t →
        (t ≤ B.time (mid i) - (ls i).lastTime → (ls (i + 1)).timeStep = (ls i).timeStep + 1 ∧
          (ls (i + 1)).lastTime = (((ls i).timeStep + 1 : Nat) : K) * t) ∧
        (¬ t ≤ B.time (mid i) - (ls i).lastTime → (ls (i + 1)).timeStep = (ls i).timeStep ∧
          (ls (i + 1)).lastTime = (ls i).lastTime)) ∧
      (∀ i, i < m → ∃ rest, dueCalls (i + 1) (B.time (ls (i + 1)).state) (ls (i + 1)).state 0 o.breakers = asked i ++ rest ∧
        (stop i = false → rest = [])) ∧
      (∀ i, i + 1 < m → stop i = false) ∧
      (m = c.steps ∨ ∃ i, i + 1 = m ∧ stop i = true) ∧
      (∀ i, i + 1 = m → stop i = true → ∃ p x, asked i = p ++ [x] ∧ ∃ before, log ++ body = before ++ asked i ∧
        o.reply (before ++ p ++ [x]) = .ok true) := by
  obtain ⟨m, ls, logs, stop, a1, a2, a3, a4, a5, a6, a7, a8, a9⟩ := loop_ok h
  have hex : ∀ i, ∃ s1 d asked, i < m → ∃ rest, B.available (ls i).state ≠ 0 ∧ B.propagate (ls i).state = .ok s1 ∧
      B.single s1 = .ok (ls (i + 1)).state ∧
      (c.dumpTime = none → c.dump = some d ∧ d ≠ 0) ∧ c.analyse ≠ 0 ∧
      logs (i + 1) = logs i ++ (beforeCalls o c.dumpTime (i + 1) (ls i).lastTime (B.time (ls i).state) (B.time s1) s1 ++
        (.event (i + 1) (ls (i + 1)).state ::
        (afterCalls o c.dumpTime d (i + 1) (B.time (ls (i + 1)).state) (ls (i + 1)).state ++
          (registerCalls o c.analyse (i + 1) (B.time (ls (i + 1)).state) (ls (i + 1)).state ++ asked)))) ∧
      (∀ t, c.dumpTime = some t →
        (t ≤ B.time s1 - (ls i).lastTime → (ls (i + 1)).timeStep = (ls i).timeStep + 1 ∧
          (ls (i + 1)).lastTime = (((ls i).timeStep + 1 : Nat) : K) * t) ∧
        (¬ t ≤ B.time s1 - (ls i).lastTime → (ls (i + 1)).timeStep = (ls i).timeStep ∧
          (ls (i + 1)).lastTime = (ls i).lastTime)) ∧
      dueCalls (i + 1) (B.time (ls (i + 1)).state) (ls (i + 1)).state 0 o.breakers = asked ++ rest ∧
      (stop i = false → rest = []) ∧ (stop i = true → asked ≠ []) ∧
      (∀ pre c suf, asked = pre ++ c :: suf → ∃ before, logs (i + 1) = before ++ asked ∧
        o.reply (before ++ pre ++ [c]) = .ok (decide (stop i = true ∧ suf = []))) := by
    intro i
    by_cases hi : i < m
    · have ht := a6 i hi
      rw [Nat.zero_add] at ht
      obtain ⟨s1, d, asked, rest, hh⟩ := turn_ok ht
      exact ⟨s1, d, asked, fun _ => ⟨rest, hh⟩⟩
    · exact ⟨s, 0, [], fun h => absurd h hi⟩
  choose mid ds asked hall using hex
  -- the same dump interval in all steps
  have hds : ∀ i, i < m → ∀ k, afterCalls o c.dumpTime (ds i) (i + 1) (B.time (ls (i + 1)).state) (ls (i + 1)).state = k →
      afterCalls o c.dumpTime (ds 0) (i + 1) (B.time (ls (i + 1)).state) (ls (i + 1)).state = k := by
    intro i hi k hk
    by_cases hn : c.dumpTime = none
    · obtain ⟨_, _, _, _, x, _⟩ := hall i hi
      obtain ⟨_, _, _, _, y, _⟩ := hall 0 (by omega)
      have hxy := (x hn).1.symm.trans (y hn).1
      rw [← Option.some.inj hxy]; exact hk
    · rw [← hk]; unfold afterCalls; simp [hn]
  have hlogs : ∀ i, i ≤ m → logs i = log ++ (List.range i).flatMap (stepCalls B o c (ds 0) (fun i => (ls i).state)
        (fun i => beforeCalls o c.dumpTime (i + 1) (ls i).lastTime (B.time (ls i).state) (B.time (mid i)) (mid i)) asked) := by
    intro i
    induction i with
    | zero => intro _; rw [a3]; simp
    | succ i ih =>
      intro hi
      obtain ⟨rest, -, -, -, -, -, e, -⟩ := hall i (by omega)
      rw [e, ih (by omega), List.range_succ, List.flatMap_append, List.append_assoc]
      congr 1
      congr 1
      rw [List.flatMap_singleton]
      unfold stepCalls
      rw [hds i (by omega) _ rfl]
  refine ⟨m, ds 0, ls, mid, asked, stop, a1, ⟨by rw [a2], ?_, ?_, ?_⟩, a4, a2, ?_, ?_, ?_, ?_, ?_, a7, a8, ?_⟩
  · intro k hk; exact (hall k hk).choose_spec.1
  · intro k hk; exact (hall k hk).choose_spec.2.1
  · intro k hk; exact (hall k hk).choose_spec.2.2.1
  · intro hm; exact (hall 0 hm).choose_spec.2.2.2.1
  · intro hm; exact (hall 0 hm).choose_spec.2.2.2.2.1
  · have := hlogs m (le_refl _)
    rw [a5] at this
    exact List.append_cancel_left this
  · intro i hi; exact (hall i hi).choose_spec.2.2.2.2.2.2.1
  · intro i hi
    obtain ⟨rest, -, -, -, -, -, -, -, e1, e2, -⟩ := hall i hi
    exact ⟨rest, e1, e2⟩
  · rintro i rfl hs
    obtain ⟨rest, -, -, -, -, -, -, -, -, -, e3, e4⟩ := hall i (by omega)
    have hne := e3 hs
    refine ⟨(asked i).dropLast, (asked i).getLast hne, (List.dropLast_append_getLast hne).symm, ?_⟩
    obtain ⟨before, b1, b2⟩ := e4 (asked i).dropLast ((asked i).getLast hne) [] (List.dropLast_append_getLast hne).symm
    refine ⟨before, by rw [← a5]; exact b1, ?_⟩
    rw [b2]; simp [hs]

theorem filterMap_nil_of {α β : Type _} {f : α → Option β} {l : List α} (h : ∀ a ∈ l, f a = none) : l.filterMap f = [] := by
  rw [List.filterMap_eq_nil_iff]; exact h

theorem dueCalls_evaluate (k b : Nat) (t : K) (x : σ) : ∀ (ws : List Nat) (i : Nat),
    (dueCalls k t x i ws).filterMap (Call.evaluate? b) =
      if i ≤ b ∧ ∃ w, ws[b - i]? = some w ∧ w ∣ k then [(k, t, x)] else [] := by
  intro ws
  induction ws with
  | nil => intro i; simp [dueCalls]
  | cons w ws ih =>
    intro i
    have hstep : (dueCalls k t x i (w :: ws)).filterMap (Call.evaluate? b) =
        (if w ∣ k ∧ i = b then [(k, t, x)] else []) ++ (dueCalls k t x (i + 1) ws).filterMap (Call.evaluate? b) := by
      unfold dueCalls
      by_cases h1 : w ∣ k
      · by_cases h2 : i = b
        · simp [List.zipIdx_cons, h1, h2, Call.evaluate?]
        · simp [List.zipIdx_cons, h1, h2, Call.evaluate?]
      · simp [List.zipIdx_cons, h1]
    rw [hstep, ih]
    rcases Nat.lt_trichotomy b i with hlt | rfl | hgt
    · rw [if_neg (by omega), if_neg (by omega), if_neg (by omega)]; rfl
    · rw [if_neg (c := b + 1 ≤ b ∧ _) (by omega)]
      simp
    · rw [if_neg (c := w ∣ k ∧ i = b) (by omega), List.nil_append]
      have : b - i = (b - (i + 1)) + 1 := by omega
      rw [this, List.getElem?_cons_succ]
      simp only [show i + 1 ≤ b ↔ True by simp; omega, show i ≤ b ↔ True by simp; omega]

theorem dueCalls_sorted (k : Nat) (t : K) (x : σ) (ws : List Nat) (i : Nat) :
    (dueCalls k t x i ws).Pairwise (fun a b => ∀ p q k1 k2 t1 t2 x1 x2, a = Call.evaluate p k1 t1 x1 →
      b = Call.evaluate q k2 t2 x2 → p < q) := by
  unfold dueCalls
  rw [List.pairwise_map]
  apply List.Pairwise.filter
  have : (ws.zipIdx i).Pairwise (fun a b => a.2 < b.2) := by
    rw [← List.pairwise_map (f := Prod.snd) (R := (· < ·)), List.zipIdx_map_snd]
    exact List.pairwise_lt_range'
  refine this.imp ?_
  intro a b hab p q k1 k2 t1 t2 x1 x2 h1 h2
  simp only [Call.evaluate.injEq] at h1 h2
  rw [← h1.1, ← h2.1]
  exact hab

theorem filterMap_range_flatMap {β : Type _} (m : Nat) (f : Call σ K → Option β) (g : Nat → List (Call σ K)) (r : Nat → List β)
    (h : ∀ i, i < m → (g i).filterMap f = r i) : ((List.range m).flatMap g).filterMap f = (List.range m).flatMap r := by
  rw [List.filterMap_flatMap]
  apply List.flatMap_congr
  intro i hi
  exact h i (List.mem_range.1 hi)

theorem opening_event (B : Backend σ K) (o : Outside σ K) (s : σ) : (opening B o s).filterMap Call.event? = [] :=
  filterMap_nil_of (by
    intro a ha
    unfold opening at ha
    rcases List.mem_append.1 ha with ha | ha
    · split at ha
      · simp at ha; rcases ha with rfl | rfl <;> rfl
      · simp at ha
    · obtain ⟨i, -, rfl⟩ := List.mem_map.1 ha; rfl)

theorem opening_register (B : Backend σ K) (o : Outside σ K) (s : σ) (a : Nat) :
    (opening B o s).filterMap (Call.register? a) = [] :=
  filterMap_nil_of (by
    intro c ha
    unfold opening at ha
    rcases List.mem_append.1 ha with ha | ha
    · split at ha
      · simp at ha; rcases ha with rfl | rfl <;> rfl
      · simp at ha
    · obtain ⟨i, -, rfl⟩ := List.mem_map.1 ha; rfl)

theorem opening_evaluate (B : Backend σ K) (o : Outside σ K) (s : σ) (a : Nat) :
    (opening B o s).filterMap (Call.evaluate? a) = [] :=
  filterMap_nil_of (by
    intro c ha
    unfold opening at ha
    rcases List.mem_append.1 ha with ha | ha
    · split at ha
      · simp at ha; rcases ha with rfl | rfl <;> rfl
      · simp at ha
    · obtain ⟨i, -, rfl⟩ := List.mem_map.1 ha; rfl)

theorem opening_frame (B : Backend σ K) (o : Outside σ K) (s : σ) :
    (opening B o s).filterMap Call.frame? = if o.trajectory then [(0, B.time s, s)] else [] := by
  have h2 : ((List.range o.analyses).map (fun a => (Call.setup a (B.time s) s : Call σ K))).filterMap Call.frame? = [] :=
    filterMap_nil_of (by intro c hc; obtain ⟨i, -, rfl⟩ := List.mem_map.1 hc; rfl)
  unfold opening
  rw [List.filterMap_append, h2, List.append_nil]
  split <;> rfl

theorem closing_none {β : Type _} (o : Outside σ K) (f : Call σ K → Option β) (h1 : f .flush = none)
    (h2 : ∀ a, f (.finalize a) = none) : (closing o).filterMap f = [] :=
  filterMap_nil_of (by
    intro c ha
    unfold closing at ha
    rcases List.mem_append.1 ha with ha | ha
    · split at ha
      · simp at ha; rw [ha]; exact h1
      · simp at ha
    · obtain ⟨i, -, rfl⟩ := List.mem_map.1 ha; exact h2 i)

theorem asked_none {β : Type _} {k : Nat} {t : K} {x : σ} {i : Nat} {ws : List Nat} {asked rest : List (Call σ K)}
    (h : dueCalls k t x i ws = asked ++ rest) (f : Call σ K → Option β) (hf : ∀ b, f (.evaluate b k t x) = none) :
    asked.filterMap f = [] :=
  filterMap_nil_of (by
    intro c hc
    have : c ∈ dueCalls k t x i ws := by rw [h]; exact List.mem_append_left _ hc
    obtain ⟨w, -, rfl⟩ := List.mem_map.1 this
    exact hf _)

theorem registerCalls_none {β : Type _} (o : Outside σ K) (a k : Nat) (t : K) (x : σ) (f : Call σ K → Option β)
    (hf : ∀ b, f (.register b k t x) = none) : (registerCalls o a k t x).filterMap f = [] :=
  filterMap_nil_of (by
    intro c hc
    unfold registerCalls at hc
    split at hc
    · obtain ⟨w, -, rfl⟩ := List.mem_map.1 hc; exact hf _
    · simp at hc)

theorem beforeCalls_none {β : Type _} (o : Outside σ K) (dt : Option K) (k : Nat) (x y z : K) (s : σ) (f : Call σ K → Option β)
    (hf : ∀ i t, f (.frame i t s) = none) : (beforeCalls o dt k x y z s).filterMap f = [] :=
  filterMap_nil_of (by
    intro c hc
    unfold beforeCalls at hc
    split at hc
    · simp at hc
    · split at hc
      · simp at hc; rw [hc]; exact hf _ _
      · simp at hc)

theorem afterCalls_none {β : Type _} (o : Outside σ K) (dt : Option K) (d k : Nat) (t : K) (s : σ) (f : Call σ K → Option β)
    (hf : ∀ i t, f (.frame i t s) = none) : (afterCalls o dt d k t s).filterMap f = [] :=
  filterMap_nil_of (by
    intro c hc
    unfold afterCalls at hc
    split at hc
    · simp at hc; rw [hc]; exact hf _ _
    · simp at hc)

theorem registerCalls_register (o : Outside σ K) (a w k : Nat) (t : K) (x : σ) (ha : a < o.analyses) :
    (registerCalls o w k t x).filterMap (Call.register? a) = if w ∣ k then [(k, t, x)] else [] := by
  unfold registerCalls
  split
  · rw [List.filterMap_map]
    have : (List.range o.analyses).filterMap (Call.register? a ∘ fun i => (Call.register i k t x : Call σ K)) =
        ((List.range o.analyses).filter (fun i => i == a)).map (fun _ => (k, t, x)) := by
      rw [← List.filterMap_eq_filter, List.map_filterMap]
      apply List.filterMap_congr
      intro i _
      by_cases h : i = a <;> simp [Call.register?, h, Option.guard]
    rw [this, List.filter_beq, List.Nodup.count List.nodup_range, if_pos (List.mem_range.2 ha)]
    rfl
  · rfl

/-- C42. The schedule of a run that ends properly. There are `m` events, one after the other from the state at
the start. Frames are written for step 0 and exactly the multiples of the dump interval, every analysis is
called at exactly the multiples of the analysis interval, always with the number, the time and the state of
the step. Breakers are asked at exactly the multiples of their intervals, except that a breaker before them
may have stopped the run in the last step. All steps are done unless a breaker said yes in the last one. -/
theorem C42_schedule (B : Backend σ K) (o : Outside σ K) (c : PyControl K) (s s' : σ) (log : List (Call σ K))
    (h : main B o c s [] = (.ok s', log)) :
    ∃ (m : Nat) (st mid : Nat → σ), m ≤ c.steps ∧ History B s m st mid ∧ s' = st m ∧
      log.filterMap Call.event? = (List.range m).map (fun k => (k + 1, st (k + 1))) ∧
      (∀ d, c.dumpTime = none → c.dump = some d → log.filterMap Call.frame? =
        if o.trajectory then (0 :: multiples d m).map (fun k => (k, B.time (st k), st k)) else []) ∧
      (∀ a, a < o.analyses → log.filterMap (Call.register? a) =
        (multiples c.analyse m).map (fun k => (k, B.time (st k), st k))) ∧
      (∀ b w, o.breakers[b]? = some w →
        log.filterMap (Call.evaluate? b) = (multiples w m).map (fun k => (k, B.time (st k), st k)) ∨
        (∃ b' pre suf, b' < b ∧ log = pre ++ .evaluate b' m (B.time (st m)) (st m) :: suf ∧
          o.reply (pre ++ [.evaluate b' m (B.time (st m)) (st m)]) = .ok true) ∧
        log.filterMap (Call.evaluate? b) = (multiples w (m - 1)).map (fun k => (k, B.time (st k), st k))) ∧
      (m = c.steps ∨ ∃ b pre suf, log = pre ++ .evaluate b m (B.time (st m)) (st m) :: suf ∧
        o.reply (pre ++ [.evaluate b m (B.time (st m)) (st m)]) = .ok true) := by
  obtain ⟨-, l, body, h1, h2, rfl⟩ := main_ok h
  obtain ⟨m, d, ls, mid, asked, stop, a1, a2, a3, a4, a5, a6, a7, a8, a9, a10, a11, a12⟩ := loop_calls h1
  have hasked : ∀ i, i < m → ∀ x ∈ asked i, ∃ b, x = .evaluate b (i + 1) (B.time (ls (i + 1)).state) (ls (i + 1)).state := by
    intro i hi x hx
    obtain ⟨rest, e, -⟩ := a9 i hi
    have : x ∈ dueCalls (i + 1) (B.time (ls (i + 1)).state) (ls (i + 1)).state 0 o.breakers := by
      rw [e]; exact List.mem_append_left _ hx
    obtain ⟨w, -, rfl⟩ := List.mem_map.1 this
    exact ⟨_, rfl⟩
  refine ⟨m, fun i => (ls i).state, mid, a1, a2, by show s' = (ls m).state; rw [a3]; exact h2.symm, ?_, ?_, ?_, ?_, ?_⟩
  · rw [List.filterMap_append, List.filterMap_append, opening_event, closing_none _ _ rfl (fun _ => rfl), List.append_nil,
      List.nil_append, a7, filterMap_range_flatMap m Call.event? _ (fun i => [(i + 1, (ls (i + 1)).state)])]
    · rw [← List.map_eq_flatMap]
    · intro i hi
      obtain ⟨rest, e, -⟩ := a9 i hi
      unfold stepCalls
      rw [List.filterMap_append, beforeCalls_none _ _ _ _ _ _ _ _ (fun _ _ => rfl), List.nil_append,
        List.filterMap_cons_some (f := Call.event?) (b := (i + 1, (ls (i + 1)).state)) rfl, List.filterMap_append,
        afterCalls_none _ _ _ _ _ _ _ (fun _ _ => rfl), List.filterMap_append,
        registerCalls_none _ _ _ _ _ _ (fun _ => rfl), asked_none e _ (fun _ => rfl)]
      rfl
  · intro d' ht hd'
    rw [List.filterMap_append, List.filterMap_append, opening_frame, closing_none _ _ rfl (fun _ => rfl), List.append_nil,
      a7, filterMap_range_flatMap m Call.frame? _ (fun i => if d' ∣ i + 1 ∧ o.trajectory = true then
        [(i + 1, B.time (ls (i + 1)).state, (ls (i + 1)).state)] else [])]
    · by_cases htr : o.trajectory = true
      · simp only [htr, if_true, and_true]
        rw [flatMap_multiples m d' (fun k => (k, B.time (ls k).state, (ls k).state)), List.map_cons]
        simp only [a4]
        rfl
      · simp [htr]
    · intro i hi
      have hdd : d = d' := by
        have := (a5 (by omega) ht).1
        rw [hd'] at this
        exact (Option.some.inj this).symm
      subst hdd
      obtain ⟨rest, e, -⟩ := a9 i hi
      unfold stepCalls
      rw [List.filterMap_append, List.filterMap_cons_none rfl, List.filterMap_append, List.filterMap_append,
        registerCalls_none _ _ _ _ _ _ (fun _ => rfl), asked_none e _ (fun _ => rfl)]
      simp only [beforeCalls, afterCalls, ht, true_and]
      by_cases h3 : d ∣ i + 1 ∧ o.trajectory = true
      · rw [if_pos h3, if_pos h3]; rfl
      · rw [if_neg h3, if_neg h3]; rfl
  · intro a ha
    rw [List.filterMap_append, List.filterMap_append, opening_register, closing_none _ _ rfl (fun _ => rfl), List.append_nil,
      List.nil_append, a7, filterMap_range_flatMap m (Call.register? a) _ (fun i => if c.analyse ∣ i + 1 then
        [(i + 1, B.time (ls (i + 1)).state, (ls (i + 1)).state)] else [])]
    · exact flatMap_multiples m c.analyse (fun k => (k, B.time (ls k).state, (ls k).state))
    · intro i hi
      obtain ⟨rest, e, -⟩ := a9 i hi
      unfold stepCalls
      rw [List.filterMap_append, beforeCalls_none _ _ _ _ _ _ _ _ (fun _ _ => rfl), List.nil_append,
        List.filterMap_cons_none rfl, List.filterMap_append,
        afterCalls_none _ _ _ _ _ _ _ (fun _ _ => rfl), List.filterMap_append,
        registerCalls_register _ _ _ _ _ _ ha, asked_none e _ (fun _ => rfl)]
      simp
  · intro b w hw
    have hbody : ∀ m', m' ≤ m → (∀ i, i < m' → stop i = false ∨ (asked i).filterMap (Call.evaluate? b) =
        if w ∣ i + 1 then [(i + 1, B.time (ls (i + 1)).state, (ls (i + 1)).state)] else []) →
        ((List.range m').flatMap (stepCalls B o c d (fun i => (ls i).state)
        (fun i => beforeCalls o c.dumpTime (i + 1) (ls i).lastTime (B.time (ls i).state) (B.time (mid i)) (mid i)) asked)).filterMap
          (Call.evaluate? b) = (multiples w m').map (fun k => (k, B.time (ls k).state, (ls k).state)) := by
      intro m' hm' hst
      rw [filterMap_range_flatMap m' (Call.evaluate? b) _ (fun i => if w ∣ i + 1 then
        [(i + 1, B.time (ls (i + 1)).state, (ls (i + 1)).state)] else [])]
      · exact flatMap_multiples m' w (fun k => (k, B.time (ls k).state, (ls k).state))
      · intro i hi
        obtain ⟨rest, e, e'⟩ := a9 i (by omega)
        unfold stepCalls
        rw [List.filterMap_append, beforeCalls_none _ _ _ _ _ _ _ _ (fun _ _ => rfl), List.nil_append,
          List.filterMap_cons_none rfl, List.filterMap_append,
          afterCalls_none _ _ _ _ _ _ _ (fun _ _ => rfl), List.filterMap_append,
          registerCalls_none _ _ _ _ _ _ (fun _ => rfl), List.nil_append, List.nil_append]
        rcases hst i hi with hs | hs
        · rw [e' hs, List.append_nil] at e
          rw [← e, dueCalls_evaluate]
          simp [hw]
        · exact hs
    rw [List.filterMap_append, List.filterMap_append, opening_evaluate, closing_none _ _ rfl (fun _ => rfl), List.append_nil,
      List.nil_append, a7]
    by_cases hlast : ∃ i, i + 1 = m ∧ stop i = true ∧ (asked i).filterMap (Call.evaluate? b) ≠
        if w ∣ i + 1 then [(i + 1, B.time (ls (i + 1)).state, (ls (i + 1)).state)] else []
    · obtain ⟨i, rfl, hs, hne⟩ := hlast
      right
      -- the breaker was not reached
      obtain ⟨rest, e, e'⟩ := a9 i (by omega)
      have hfull := dueCalls_evaluate (i + 1) b (B.time (ls (i + 1)).state) (ls (i + 1)).state o.breakers 0
      rw [e, List.filterMap_append] at hfull
      simp only [Nat.zero_le, true_and, Nat.sub_zero, hw, Option.some.injEq, exists_eq_left'] at hfull
      obtain ⟨p, x, hp, before, hb, hr⟩ := a12 i rfl hs
      obtain ⟨b', rfl⟩ := hasked i (by omega) x (by rw [hp]; simp)
      have hrest : rest.filterMap (Call.evaluate? b) ≠ [] := by
        intro h0
        rw [h0, List.append_nil] at hfull
        exact hne hfull
      have hnone : (asked i).filterMap (Call.evaluate? b) = [] := by
        split at hfull
        · rcases List.append_eq_singleton_iff.1 hfull with ⟨h0, -⟩ | ⟨-, h0⟩
          · exact h0
          · exact absurd h0 hrest
        · exact (List.append_eq_nil_iff.1 hfull).1
      obtain ⟨y, hy⟩ := List.exists_mem_of_ne_nil _ hrest
      obtain ⟨z, hz, hzy⟩ := List.mem_filterMap.1 hy
      have hzd : z ∈ dueCalls (i + 1) (B.time (ls (i + 1)).state) (ls (i + 1)).state 0 o.breakers := by
        rw [e]; exact List.mem_append_right _ hz
      obtain ⟨zw, -, rfl⟩ := List.mem_map.1 hzd
      have hzb : zw.2 = b := by
        by_contra hc
        simp [Call.evaluate?, hc] at hzy
      have hord := dueCalls_sorted (i + 1) (B.time (ls (i + 1)).state) (ls (i + 1)).state o.breakers 0
      rw [e, List.pairwise_append] at hord
      have hlt := hord.2.2 (.evaluate b' (i + 1) (B.time (ls (i + 1)).state) (ls (i + 1)).state) (by rw [hp]; simp) _ hz b' zw.2 _ _ _ _ _ _ rfl rfl
      rw [hzb] at hlt
      refine ⟨⟨b', before ++ p, closing o, hlt, ?_, hr⟩, ?_⟩
      · rw [← a7, hb, hp]
        simp
      · rw [List.range_succ, List.flatMap_append, List.filterMap_append, Nat.add_sub_cancel, hbody i (by omega),
          List.flatMap_singleton]
        · unfold stepCalls
          rw [List.filterMap_append, beforeCalls_none _ _ _ _ _ _ _ _ (fun _ _ => rfl), List.nil_append,
            List.filterMap_cons_none rfl, List.filterMap_append,
            afterCalls_none _ _ _ _ _ _ _ (fun _ _ => rfl), List.filterMap_append,
            registerCalls_none _ _ _ _ _ _ (fun _ => rfl), List.nil_append, List.nil_append, hnone, List.append_nil]
        · intro k hk
          exact .inl (a10 k (by omega))
    · left
      apply hbody m (le_refl _)
      intro i hi
      by_cases hs : stop i = true
      · right
        have him : i + 1 = m := by
          by_contra hc
          have := a10 i (by omega)
          rw [hs] at this; simp at this
        by_contra hc
        exact hlast ⟨i, him, hs, hc⟩
      · left; simpa using hs
  · rcases a11 with hm | ⟨i, rfl, hs⟩
    · exact .inl hm
    · right
      obtain ⟨p, x, hp, before, hb, hr⟩ := a12 i rfl hs
      obtain ⟨b, rfl⟩ := hasked i (by omega) x (by rw [hp]; simp)
      refine ⟨b, before ++ p, closing o, ?_, hr⟩
      rw [hb, hp]
      simp

/-! ### The first breaker that says yes -/

/-- If a breaker is asked by `x` and says yes, then that is the last call of `x`, and `x` ends with a value
that says stop. -/
def Heard {α : Type _} (o : Outside σ K) (stopped : α → Prop) (x : Act σ K α) : Prop :=
  ∀ log, ∃ new, (x log).2 = log ++ new ∧ ∀ pre b k t s suf, new = pre ++ Call.evaluate b k t s :: suf →
    o.reply (log ++ pre ++ [.evaluate b k t s]) = .ok true → suf = [] ∧ ∃ a, (x log).1 = .ok a ∧ stopped a

/-- The call is not to a breaker. -/
def Call.Plain (c : Call σ K) : Prop := ∀ b k t s, c ≠ .evaluate b k t s

theorem Heard.of_only {α : Type _} {o : Outside σ K} {P : α → Prop} {x : Act σ K α} (h : Act.Only Call.Plain x) :
    Heard o P x := by
  intro log
  obtain ⟨new, h1, h2⟩ := h log
  refine ⟨new, h1, ?_⟩
  rintro pre b k t s suf rfl
  exact absurd rfl (h2 (.evaluate b k t s) (by simp) b k t s)

theorem split_append {α : Type _} {l r pre suf : List α} {c : α} (h : l ++ r = pre ++ c :: suf) :
    (∃ suf', l = pre ++ c :: suf' ∧ suf = suf' ++ r) ∨ (∃ pre', pre = l ++ pre' ∧ r = pre' ++ c :: suf) := by
  rcases List.append_eq_append_iff.1 h with ⟨mid, e1, e2⟩ | ⟨mid, e1, e2⟩
  · exact .inr ⟨mid, e1, e2⟩
  · cases mid with
    | nil => exact .inr ⟨[], by rw [e1]; simp, by simpa using e2.symm⟩
    | cons y mid =>
      rw [List.cons_append, List.cons.injEq] at e2
      obtain ⟨rfl, e2⟩ := e2
      exact .inl ⟨mid, e1, e2⟩

theorem Heard.bind {α β : Type _} {o : Outside σ K} {P : α → Prop} {Q : β → Prop} {x : Act σ K α} {f : α → Act σ K β}
    (hx : Heard o P x) (hP : ∀ a, P a → ∀ log, ∃ b, f a log = (.ok b, log) ∧ Q b) (hf : ∀ a, Heard o Q (f a)) :
    Heard o Q (x >>= f) := by
  intro log
  obtain ⟨n1, h1, h2⟩ := hx log
  rw [Act.bind_eq]
  split
  · rename_i a log' he
    rw [he] at h1 h2
    simp only at h1
    subst h1
    obtain ⟨n2, h3, h4⟩ := hf a (log ++ n1)
    refine ⟨n1 ++ n2, by rw [h3, List.append_assoc], ?_⟩
    intro pre b k t s suf hs hr
    rcases split_append hs with ⟨suf', e1, e2⟩ | ⟨pre', e1, e2⟩
    · obtain ⟨rfl, a', ha', hPa⟩ := h2 pre b k t s suf' e1 hr
      obtain rfl := Except.ok.inj ha'
      obtain ⟨v, hv, hq⟩ := hP a hPa (log ++ n1)
      rw [hv] at h3
      have : n2 = [] := by simpa using h3
      subst this
      exact ⟨by rw [e2]; rfl, v, by rw [hv], hq⟩
    · subst e1
      exact h4 pre' b k t s suf e2 (by rw [← List.append_assoc] at hr; exact hr)
  · rename_i e log' he
    rw [he] at h1 h2
    refine ⟨n1, h1, ?_⟩
    intro pre b k t s suf hs hr
    obtain ⟨-, a, ha, -⟩ := h2 pre b k t s suf hs hr
    cases ha

theorem Heard.after {α β : Type _} {o : Outside σ K} {Q : β → Prop} {x : Act σ K α} {f : α → Act σ K β}
    (hx : Act.Only Call.Plain x) (hf : ∀ a, Heard o Q (f a)) : Heard o Q (x >>= f) :=
  Heard.bind (P := fun _ => False) (Heard.of_only hx) (fun _ h => h.elim) hf

theorem breakers_heard (o : Outside σ K) (k : Nat) (x : σ) (t : K) : ∀ (ws : List Nat) (i : Nat),
    Heard o (fun r => r = true) (breakers o k x t i ws) := by
  intro ws
  induction ws with
  | nil => intro i; exact Heard.of_only (Act.Only.pure _)
  | cons w ws ih =>
    intro i
    unfold breakers
    refine Heard.after (Act.Only.lift _) fun b => ?_
    split
    · refine Heard.bind (P := fun r => r = true) ?_ ?_ ?_
      · intro log
        refine ⟨[.evaluate i k t x], rfl, ?_⟩
        intro pre b k' t' s' suf hs hr
        cases pre with
        | nil =>
          rw [List.nil_append, List.cons.injEq] at hs
          obtain ⟨h1, rfl⟩ := hs
          refine ⟨rfl, true, ?_, rfl⟩
          rw [← h1, List.append_nil] at hr
          exact hr
        | cons p pre => simp at hs
      · rintro a rfl log
        exact ⟨true, rfl, rfl⟩
      · intro a
        split
        · exact Heard.of_only (Act.Only.pure _)
        · exact ih _
    · exact ih _

theorem plain_calls {o : Outside σ K} {cs : List (Call σ K)} (h : ∀ c ∈ cs, Call.Plain c) : Act.Only Call.Plain (Act.calls o cs) :=
  Act.Only.calls h

theorem plain_append (o : Outside σ K) (k : Nat) (t : K) (s : σ) : Act.Only Call.Plain (append o k t s) := by
  unfold append
  apply plain_calls
  intro c hc
  split at hc
  · simp at hc; subst hc; intro _ _ _ _ h; cases h
  · simp at hc

theorem turn_heard (B : Backend σ K) (o : Outside σ K) (c : PyControl K) (k : Nat) (l : Loop σ K) :
    Heard o (fun r => r.2 = true) (turn B o c k l) := by
  unfold turn
  split
  · exact Heard.of_only (Act.Only.lift _)
  refine Heard.after (Act.Only.lift _) fun s1 => ?_
  refine Heard.after ?_ fun l1 => ?_
  · unfold dumpBefore
    split
    · exact Act.Only.pure _
    · split
      · exact (plain_append _ _ _ _).bind fun _ => Act.Only.pure _
      · exact Act.Only.pure _
  refine Heard.after (Act.Only.lift _) fun s2 => ?_
  refine Heard.after (Act.Only.note (by intro _ _ _ _ h; cases h)) fun _ => ?_
  refine Heard.after ?_ fun l2 => ?_
  · unfold dumpAfter
    split
    · exact Act.Only.pure _
    · exact Act.Only.lift _
    · refine (Act.Only.lift _).bind fun b => ?_
      split
      · exact (plain_append _ _ _ _).bind fun _ => Act.Only.pure _
      · exact Act.Only.pure _
  refine Heard.after ?_ fun _ => ?_
  · unfold analyse
    refine (Act.Only.lift _).bind fun b => plain_calls ?_
    intro c hc
    split at hc
    · obtain ⟨a, -, rfl⟩ := List.mem_map.1 hc
      intro _ _ _ _ h; cases h
    · simp at hc
  refine Heard.bind (breakers_heard o k s2 _ o.breakers 0) ?_ ?_
  · rintro a rfl log
    exact ⟨_, rfl, rfl⟩
  · intro a
    exact Heard.of_only (Act.Only.pure _)

theorem loop_heard (B : Backend σ K) (o : Outside σ K) (c : PyControl K) : ∀ (n k : Nat) (l : Loop σ K),
    Heard o (fun _ => True) (loop B o c n k l) := by
  intro n
  induction n with
  | zero => intro k l; exact Heard.of_only (Act.Only.pure _)
  | succ n ih =>
    intro k l
    unfold loop
    refine Heard.bind (turn_heard B o c (k + 1) l) ?_ ?_
    · intro a ha log
      rw [if_pos ha]
      exact ⟨_, rfl, trivial⟩
    · intro a
      split
      · exact Heard.of_only (Act.Only.pure _)
      · exact ih _ _

/-- The call belongs to the clean-up. -/
def Call.Closes (c : Call σ K) : Prop := c = .flush ∨ ∃ a, c = .finalize a

theorem closing_closes (o : Outside σ K) : ∀ c ∈ closing o, Call.Closes c := by
  intro c hc
  unfold closing at hc
  rcases List.mem_append.1 hc with hc | hc
  · split at hc
    · simp at hc; exact .inl hc
    · simp at hc
  · obtain ⟨a, -, rfl⟩ := List.mem_map.1 hc
    exact .inr ⟨a, rfl⟩

theorem opening_opens (B : Backend σ K) (o : Outside σ K) (s : σ) : ∀ c ∈ opening B o s, ¬ Call.Closes c ∧ Call.Plain c := by
  intro c hc
  unfold opening at hc
  rcases List.mem_append.1 hc with hc | hc
  · split at hc
    · simp at hc
      rcases hc with rfl | rfl <;> exact ⟨(by rintro (h | ⟨a, h⟩) <;> cases h), (by intro _ _ _ _ h; cases h)⟩
    · simp at hc
  · obtain ⟨a, -, rfl⟩ := List.mem_map.1 hc
    exact ⟨(by rintro (h | ⟨a, h⟩) <;> cases h), (by intro _ _ _ _ h; cases h)⟩

theorem prelude_any (B : Backend σ K) (o : Outside σ K) (s : σ) :
    Act.Only (fun c => ¬ Call.Closes c ∧ Call.Plain c) (prelude B o s) := by
  unfold prelude
  split
  · exact Act.Only.lift _
  · exact Act.Only.calls (opening_opens B o s)

/-- The calls of a run, however it ends. -/
theorem main_any (B : Backend σ K) (o : Outside σ K) (c : PyControl K) (s : σ) :
    (∃ e log, prelude B o s [] = (.error e, log) ∧ main B o c s [] = (.error e, log)) ∨
    ∃ body cl, prelude B o s [] = (.ok (), opening B o s) ∧
      (loop B o c c.steps 0 ⟨s, B.time s, 0⟩ (opening B o s)).2 = opening B o s ++ body ∧
      (cleanUp o (opening B o s ++ body)).2 = opening B o s ++ body ++ cl ∧ (∀ x ∈ cl, Call.Closes x) ∧
      (main B o c s []).2 = opening B o s ++ body ++ cl ∧
      (∀ e, (cleanUp o (opening B o s ++ body)).1 = .error e → (main B o c s []).1 = .error e) ∧
      ((cleanUp o (opening B o s ++ body)).1 = .ok () → cl = closing o ∧
        (main B o c s []).1 = (loop B o c c.steps 0 ⟨s, B.time s, 0⟩ (opening B o s)).1.map (·.state)) := by
  rcases hp : prelude B o s [] with ⟨r, log⟩
  cases r with
  | error e =>
    left
    refine ⟨e, log, rfl, ?_⟩
    unfold main
    rw [Act.bind_eq, hp]
  | ok u =>
    right
    have hlog : log = opening B o s := by
      unfold prelude at hp
      split at hp
      · exact absurd (Act.lift_ok.1 hp).1 (by simp)
      · have := (Act.calls_ok.1 hp).1
        rw [List.nil_append] at this
        exact this
    subst hlog
    obtain ⟨body, hb, -⟩ := loop_heard B o c c.steps 0 ⟨s, B.time s, 0⟩ (opening B o s)
    have honly : Act.Only Call.Closes (cleanUp o) := Act.Only.calls (closing_closes o)
    obtain ⟨cl, hcl, hcc⟩ := honly (opening B o s ++ body)
    have hmain : main B o c s [] = (Act.tryFinally (loop B o c c.steps 0 ⟨s, B.time s, 0⟩) (cleanUp o) >>=
        fun l => pure l.state) (opening B o s) := by
      unfold main
      rw [Act.bind_eq, hp]
    refine ⟨body, cl, rfl, hb, hcl, hcc, ?_, ?_, ?_⟩
    · rw [hmain, Act.bind_eq]
      unfold Act.tryFinally
      rw [hb]
      rcases hc : cleanUp o (opening B o s ++ body) with ⟨r, log'⟩
      rw [hc] at hcl
      simp only at hcl
      subst hcl
      cases r with
      | error e => rfl
      | ok u =>
        rcases hl : (loop B o c c.steps 0 ⟨s, B.time s, 0⟩ (opening B o s)) with ⟨q, log''⟩
        cases q <;> rfl
    · intro e he
      rw [hmain, Act.bind_eq]
      unfold Act.tryFinally
      rw [hb]
      rcases hc : cleanUp o (opening B o s ++ body) with ⟨r, log'⟩
      rw [hc] at he
      simp only at he
      subst he
      rfl
    · intro he
      rcases hc : cleanUp o (opening B o s ++ body) with ⟨r, log'⟩
      rw [hc] at he hcl
      simp only at he hcl
      subst he
      subst hcl
      constructor
      · have := (Act.calls_ok.1 hc).1
        exact List.append_cancel_left this
      · rw [hmain, Act.bind_eq]
        unfold Act.tryFinally
        rw [hb, hc]
        rcases hl : (loop B o c c.steps 0 ⟨s, B.time s, 0⟩ (opening B o s)) with ⟨q, log''⟩
        cases q <;> rfl

/-- C42. Once a breaker has said yes there is nothing but the clean-up, however the run ends. -/
theorem C42_first_breaker (B : Backend σ K) (o : Outside σ K) (c : PyControl K) (s : σ) (pre suf : List (Call σ K)) (b k : Nat)
    (t : K) (x : σ) (h : (main B o c s []).2 = pre ++ .evaluate b k t x :: suf)
    (hr : o.reply (pre ++ [.evaluate b k t x]) = .ok true) : ∀ y ∈ suf, y = .flush ∨ ∃ a, y = .finalize a := by
  rcases main_any B o c s with ⟨e, log, h1, h2⟩ | ⟨body, cl, h1, h2, h3, h4, h5, -⟩
  · exfalso
    obtain ⟨new, e1, e2⟩ := prelude_any B o s []
    rw [h1, List.nil_append] at e1
    rw [h2] at h
    simp only at e1 h
    subst e1
    exact (e2 (.evaluate b k t x) (by rw [h]; simp)).2 _ _ _ _ rfl
  · obtain ⟨body', e1, e2⟩ := loop_heard B o c c.steps 0 ⟨s, B.time s, 0⟩ (opening B o s)
    rw [h2] at e1
    obtain rfl := List.append_cancel_left e1
    rw [h5, List.append_assoc] at h
    rcases split_append h with ⟨suf', m1, -⟩ | ⟨pre', rfl, m2⟩
    · exact absurd rfl ((opening_opens B o s (.evaluate b k t x) (by rw [m1]; simp)).2 b k t x)
    · rcases split_append m2 with ⟨suf', n1, n2⟩ | ⟨pre'', rfl, n2⟩
      · obtain ⟨rfl, -⟩ := e2 pre' b k t x suf' n1 hr
        intro y hy
        rw [n2] at hy
        exact h4 y (by simpa using hy)
      · exfalso
        have := h4 (.evaluate b k t x) (by rw [n2]; simp)
        rcases this with h | ⟨a, h⟩ <;> cases h

/-! ### All steps are done -/

/-- The outside does not raise, and no breaker says yes. -/
structure Calm (o : Outside σ K) : Prop where
  answers : ∀ cs, ∃ r, o.reply cs = .ok r
  no : ∀ cs b k t x, o.reply (cs ++ [.evaluate b k t x]) = .ok false
  intervals : ∀ w ∈ o.breakers, w ≠ 0

theorem Calm.calls {o : Outside σ K} (h : Calm o) (cs log : List (Call σ K)) : Act.calls o cs log = (.ok (), log ++ cs) :=
  Act.calls_ok.2 ⟨rfl, fun _ _ _ _ => h.answers _⟩

theorem Calm.breakers {o : Outside σ K} (h : Calm o) (k : Nat) (x : σ) (t : K) : ∀ (ws : List Nat) (i : Nat) (log : List (Call σ K)),
    (∀ w ∈ ws, w ≠ 0) → ∃ log', PyRun.breakers o k x t i ws log = (.ok false, log') := by
  intro ws
  induction ws with
  | nil => intro i log _; exact ⟨log, rfl⟩
  | cons w ws ih =>
    intro i log hw
    obtain ⟨log1, h1⟩ := ih (i + 1) log (fun w hw' => hw w (by simp [hw']))
    obtain ⟨log2, h2⟩ := ih (i + 1) (log ++ [.evaluate i k t x]) (fun w hw' => hw w (by simp [hw']))
    have hd : due w k = .ok (decide (w ∣ k)) := due_ok.2 ⟨hw w (by simp), rfl⟩
    unfold PyRun.breakers
    rw [Act.bind_eq]
    simp only [Act.lift, hd]
    by_cases hdvd : w ∣ k
    · rw [if_pos (by simpa using hdvd)]
      refine ⟨log2, ?_⟩
      rw [Act.bind_eq]
      simp only [Act.call, h.no]
      rw [if_neg (by simp)]
      exact h2
    · rw [if_neg (by simpa using hdvd)]
      exact ⟨log1, h1⟩

theorem turn_runs {B : Backend σ K} {o : Outside σ K} {c : PyControl K} (ho : Calm o) (ha : c.analyse ≠ 0)
    (hd : c.dumpTime = none → ∃ d, c.dump = some d ∧ d ≠ 0) (k : Nat) (l : Loop σ K) (log : List (Call σ K)) {s1 s2 : σ}
    (hav : B.available l.state ≠ 0) (h1 : B.propagate l.state = .ok s1) (h2 : B.single s1 = .ok s2) :
    ∃ l' log', turn B o c k l log = (.ok (l', false), log') ∧ l'.state = s2 := by
  unfold turn
  rw [if_neg hav]
  have hb : ∀ (l : Loop σ K) x y log, ∃ l' log', dumpBefore o c.dumpTime k l x y log = (.ok l', log') := by
    intro l x y log
    cases ht : c.dumpTime with
    | none => exact ⟨_, _, rfl⟩
    | some d =>
      unfold dumpBefore
      simp only
      by_cases hg : d ≤ y - l.lastTime
      · rw [if_pos hg]
        unfold append
        rw [Act.bind_eq, ho.calls]
        exact ⟨_, _, rfl⟩
      · rw [if_neg hg]
        exact ⟨_, _, rfl⟩
  have hf : ∀ (l : Loop σ K) x log, ∃ l' log', dumpAfter o c.dumpTime c.dump k l x log = (.ok l', log') ∧ l'.state = l.state := by
    intro l x log
    cases ht : c.dumpTime with
    | some D => exact ⟨_, _, rfl, rfl⟩
    | none =>
      obtain ⟨d, e, hd0⟩ := hd ht
      rw [e]
      have hdd : due d k = .ok (decide (d ∣ k)) := due_ok.2 ⟨hd0, rfl⟩
      unfold dumpAfter
      simp only
      rw [Act.bind_eq]
      simp only [Act.lift, hdd]
      split
      · unfold append
        rw [Act.bind_eq, ho.calls]
        exact ⟨_, _, rfl, rfl⟩
      · exact ⟨_, _, rfl, rfl⟩
  have han : ∀ log, ∃ log', analyse o c.analyse k s2 (B.time s2) log = (.ok (), log') := by
    intro log
    have hdd : due c.analyse k = .ok (decide (c.analyse ∣ k)) := due_ok.2 ⟨ha, rfl⟩
    unfold analyse
    rw [Act.bind_eq]
    simp only [Act.lift, hdd]
    exact ⟨_, ho.calls _ _⟩
  obtain ⟨l1, log1, e1⟩ := hb { l with state := s1 } (B.time l.state) (B.time s1) log
  obtain ⟨l2, log2, e2, e2s⟩ := hf { l1 with state := s2 } (B.time s2) (log1 ++ [.event k s2])
  obtain ⟨log3, e3⟩ := han log2
  obtain ⟨log4, e4⟩ := ho.breakers k s2 (B.time s2) o.breakers 0 log3 ho.intervals
  refine ⟨l2, log4, ?_, e2s⟩
  rw [h1]
  exact Act.bind_ok.2 ⟨s1, log, rfl, Act.bind_ok.2 ⟨l1, log1, e1, Act.bind_ok.2 ⟨s2, log1, by rw [h2]; rfl,
    Act.bind_ok.2 ⟨(), _, rfl, Act.bind_ok.2 ⟨l2, log2, e2, Act.bind_ok.2 ⟨(), log3, e3,
      Act.bind_ok.2 ⟨false, log4, e4, rfl⟩⟩⟩⟩⟩⟩⟩

theorem loop_runs {B : Backend σ K} {o : Outside σ K} {c : PyControl K} (ho : Calm o) (ha : c.analyse ≠ 0)
    (hd : c.dumpTime = none → ∃ d, c.dump = some d ∧ d ≠ 0)
    {I : Nat → σ → Prop}
    (hB : ∀ n x, I (n + 1) x → B.available x ≠ 0 → ∃ y z, B.propagate x = .ok y ∧ B.single y = .ok z ∧ I n z) :
    ∀ (n k : Nat) (l : Loop σ K) (log : List (Call σ K)), I n l.state →
    (∃ l' st mid, (loop B o c n k l log).1 = .ok l' ∧ History B l.state n st mid ∧ l'.state = st n) ∨
    (∃ m st mid, m < n ∧ (loop B o c n k l log).1 = .error .exception ∧ History B l.state m st mid ∧ B.available (st m) = 0) := by
  intro n
  induction n with
  | zero =>
    intro k l log _
    exact .inl ⟨l, fun _ => l.state, fun _ => l.state, rfl, ⟨rfl, by simp, by simp, by simp⟩, rfl⟩
  | succ n ih =>
    intro k l log hl
    by_cases hav : B.available l.state = 0
    · right
      refine ⟨0, fun _ => l.state, fun _ => l.state, by omega, ?_, ⟨rfl, by simp, by simp, by simp⟩, hav⟩
      unfold loop turn
      rw [if_pos hav, Act.bind_eq]
      rfl
    · obtain ⟨s1, s2, h1, h2, hl2⟩ := hB n l.state hl hav
      obtain ⟨l', log', e, es⟩ := turn_runs ho ha hd (k + 1) l log hav h1 h2
      have hloop : loop B o c (n + 1) k l log = loop B o c n (k + 1) l' log' := by
        conv_lhs => unfold loop
        rw [Act.bind_eq, e]
        simp
      rw [hloop]
      have hext : ∀ {m st mid}, History B l'.state m st mid →
          History B l.state (m + 1) (fun i => match i with | 0 => l.state | j + 1 => st j)
            (fun i => match i with | 0 => s1 | j + 1 => mid j) := by
        intro m st mid hh
        refine ⟨rfl, ?_, ?_, ?_⟩
        · intro i hi
          cases i with
          | zero => exact hav
          | succ j => exact hh.possible j (by omega)
        · intro i hi
          cases i with
          | zero => exact h1
          | succ j => exact hh.clock j (by omega)
        · intro i hi
          cases i with
          | zero => show B.single s1 = .ok (st 0); rw [hh.start, es]; exact h2
          | succ j => exact hh.event j (by omega)
      rcases ih (k + 1) l' log' (by rw [es]; exact hl2) with ⟨l'', st, mid, g1, g2, g3⟩ | ⟨m, st, mid, g0, g1, g2, g3⟩
      · exact .inl ⟨l'', _, _, g1, hext g2, g3⟩
      · exact .inr ⟨m + 1, _, _, by omega, g1, hext g2, g3⟩

/-- C42. When nothing outside interferes, intervals are not zero and the backend can do a step whenever
something is available, the run does all its steps, or it ends with the error that nothing is available after
fewer steps. What the backend can do is only asked of states with `I n`, where `n` is the number of steps still to
do; `I c.steps` holds at the start and steps keep it. -/
theorem C42_runs (B : Backend σ K) (o : Outside σ K) (c : PyControl K) (s : σ) (ho : Calm o) (ha : c.analyse ≠ 0)
    (hd : c.dumpTime = none → ∃ d, c.dump = some d ∧ d ≠ 0)
    (I : Nat → σ → Prop) (hs : I c.steps s)
    (hB : ∀ n x, I (n + 1) x → B.available x ≠ 0 → ∃ y z, B.propagate x = .ok y ∧ B.single y = .ok z ∧ I n z) :
    (∃ st mid, (main B o c s []).1 = .ok (st c.steps) ∧ History B s c.steps st mid ∧ B.available s ≠ 0) ∨
    (∃ m st mid, m ≤ c.steps ∧ (main B o c s []).1 = .error .exception ∧ History B s m st mid ∧ B.available (st m) = 0) := by
  by_cases hav : B.available s = 0
  · right
    refine ⟨0, fun _ => s, fun _ => s, by omega, ?_, ⟨rfl, by simp, by simp, by simp⟩, hav⟩
    unfold main prelude
    rw [if_pos hav, Act.bind_eq]
    rfl
  rcases main_any B o c s with ⟨e, log, h1, h2⟩ | ⟨body, cl, h1, h2, h3, h4, h5, h6, h7⟩
  · exfalso
    unfold prelude at h1
    rw [if_neg hav, ho.calls] at h1
    simp at h1
  · have hcl : (cleanUp o (opening B o s ++ body)).1 = .ok () := by
      unfold cleanUp; rw [ho.calls]
    obtain ⟨-, hres⟩ := h7 hcl
    rcases loop_runs ho ha hd hB c.steps 0 ⟨s, B.time s, 0⟩ (opening B o s) hs with ⟨l', st, mid, g1, g2, g3⟩ | ⟨m, st, mid, g0, g1, g2, g3⟩
    · left
      refine ⟨st, mid, ?_, g2, hav⟩
      rw [hres, g1, ← g3]; rfl
    · right
      refine ⟨m, st, mid, by omega, ?_, g2, g3⟩
      rw [hres, g1]; rfl

/-! ### C43 -/

theorem loop_only {P : Call σ K → Prop} (h1 : ∀ k t s, P (.frame k t s)) (h2 : ∀ k s, P (.event k s))
    (h3 : ∀ a k t s, P (.register a k t s)) (h4 : ∀ a k t s, P (.evaluate a k t s))
    (B : Backend σ K) (o : Outside σ K) (c : PyControl K) (n : Nat) : ∀ (k : Nat) (l : Loop σ K), Act.Only P (loop B o c n k l) := by
  have happ : ∀ k t s, Act.Only P (append o k t s) := by
    intro k t s
    unfold append
    apply Act.Only.calls
    intro x hx
    split at hx
    · simp at hx; rw [hx]; exact h1 _ _ _
    · simp at hx
  have hbr : ∀ k x t (ws : List Nat) i, Act.Only P (breakers o k x t i ws) := by
    intro k x t ws
    induction ws with
    | nil => intro i; exact Act.Only.pure _
    | cons w ws ih =>
      intro i
      unfold breakers
      refine (Act.Only.lift _).bind fun b => ?_
      split
      · refine (Act.Only.call (h4 _ _ _ _)).bind fun r => ?_
        split
        · exact Act.Only.pure _
        · exact ih _
      · exact ih _
  have hturn : ∀ k l, Act.Only P (turn B o c k l) := by
    intro k l
    unfold turn
    split
    · exact Act.Only.lift _
    refine (Act.Only.lift _).bind fun s1 => ?_
    refine Act.Only.bind ?_ fun l1 => ?_
    · unfold dumpBefore
      split
      · exact Act.Only.pure _
      · split
        · exact (happ _ _ _).bind fun _ => Act.Only.pure _
        · exact Act.Only.pure _
    refine (Act.Only.lift _).bind fun s2 => ?_
    refine (Act.Only.note (h2 _ _)).bind fun _ => ?_
    refine Act.Only.bind ?_ fun l2 => ?_
    · unfold dumpAfter
      split
      · exact Act.Only.pure _
      · exact Act.Only.lift _
      · refine (Act.Only.lift _).bind fun b => ?_
        split
        · exact (happ _ _ _).bind fun _ => Act.Only.pure _
        · exact Act.Only.pure _
    refine Act.Only.bind ?_ fun _ => ?_
    · unfold analyse
      refine (Act.Only.lift _).bind fun b => Act.Only.calls ?_
      intro x hx
      split at hx
      · obtain ⟨a, -, rfl⟩ := List.mem_map.1 hx
        exact h3 _ _ _ _
      · simp at hx
    exact (hbr _ _ _ _ _).bind fun _ => Act.Only.pure _
  induction n with
  | zero => intro k l; exact Act.Only.pure _
  | succ n ih =>
    intro k l
    unfold loop
    refine (hturn _ _).bind fun r => ?_
    split
    · exact Act.Only.pure _
    · exact ih _ _

/-- C43. However the loop ends, the trajectory is flushed once and then every analysis is finalised once, in
order, and nothing is flushed or finalised before; the result of the run is that of the loop. Partial: the
preparation before the loop must not raise (`C43_not_prepared`), nor the clean-up itself (`C43_clean_up_cut`). -/
theorem C43_clean_up_partial (B : Backend σ K) (o : Outside σ K) (c : PyControl K) (s : σ)
    (hp : (prelude B o s []).1 = .ok ())
    (hc : ∀ log x, x = .flush ∨ (∃ a, x = .finalize a) → ∃ r, o.reply (log ++ [x]) = .ok r) :
    ∃ pre, (main B o c s []).2 = pre ++ (if o.trajectory then [.flush] else []) ++
        (List.range o.analyses).map (fun a => .finalize a) ∧
      (∀ x ∈ pre, x ≠ .flush ∧ ∀ a, x ≠ .finalize a) ∧
      (main B o c s []).1 = (loop B o c c.steps 0 ⟨s, B.time s, 0⟩ (opening B o s)).1.map (·.state) := by
  rcases main_any B o c s with ⟨e, log, h1, h2⟩ | ⟨body, cl, h1, h2, h3, h4, h5, h6, h7⟩
  · rw [h1] at hp; cases hp
  · have hcl : (cleanUp o (opening B o s ++ body)).1 = .ok () := by
      unfold cleanUp
      have : Act.calls o (closing o) (opening B o s ++ body) = (.ok (), opening B o s ++ body ++ closing o) := by
        refine Act.calls_ok.2 ⟨rfl, ?_⟩
        intro pre x suf hs
        have := hc (opening B o s ++ body ++ pre) x (closing_closes o x (by rw [hs]; simp))
        exact this
      exact congrArg Prod.fst this
    obtain ⟨rfl, hres⟩ := h7 hcl
    refine ⟨opening B o s ++ body, by rw [h5]; unfold closing; simp only [List.append_assoc], ?_, hres⟩
    have hnot : ∀ x : Call σ K, ¬ Call.Closes x → x ≠ .flush ∧ ∀ a, x ≠ .finalize a :=
      fun x hx => ⟨fun h => hx (.inl h), fun a h => hx (.inr ⟨a, h⟩)⟩
    intro x hx
    rcases List.mem_append.1 hx with hx | hx
    · exact hnot x (opening_opens B o s x hx).1
    · have honly : Act.Only (fun x : Call σ K => ¬ Call.Closes x) (loop B o c c.steps 0 ⟨s, B.time s, 0⟩) := by
        apply loop_only
        all_goals intros; rintro (h | ⟨a, h⟩) <;> cases h
      obtain ⟨new, n1, n2⟩ := honly (opening B o s)
      rw [h2] at n1
      obtain rfl := List.append_cancel_left n1
      exact hnot x (n2 x hx)

/-- C43. If the preparation raises, nothing is flushed and nothing is finalised. -/
theorem C43_not_prepared (B : Backend σ K) (o : Outside σ K) (c : PyControl K) (s : σ) (e : Fault)
    (h : (prelude B o s []).1 = .error e) :
    (main B o c s []).1 = .error e ∧ ∀ x ∈ (main B o c s []).2, x ≠ .flush ∧ ∀ a, x ≠ .finalize a := by
  rcases main_any B o c s with ⟨e', log, h1, h2⟩ | ⟨body, cl, h1, -⟩
  · rw [h1] at h
    obtain rfl := Except.error.inj h
    rw [h2]
    refine ⟨rfl, ?_⟩
    obtain ⟨new, n1, n2⟩ := prelude_any B o s []
    rw [h1, List.nil_append] at n1
    intro x hx
    simp only at n1 hx
    rw [n1] at hx
    exact ⟨fun hh => (n2 x hx).1 (.inl hh), fun a hh => (n2 x hx).1 (.inr ⟨a, hh⟩)⟩
  · rw [h1] at h; cases h

end

/-! ### A small backend for witnesses -/

namespace Sample

/-- A clock that goes through a list of time steps; something is available while steps are left. -/
def clock : Backend (List ℚ × ℚ) ℚ where
  available := fun s => s.1.length
  time := fun s => s.2
  propagate := fun s =>
    match s.1 with
    | [] => .error .exception
    | dt :: _ => .ok (s.1, s.2 + dt)
  single := fun s =>
    match s.1 with
    | [] => .error .exception
    | _ :: l => .ok (l, s.2)

/-- A trajectory, two analyses, and a breaker asked every second step that says yes at step four. -/
def quiet : Outside (List ℚ × ℚ) ℚ where
  trajectory := true
  analyses := 2
  breakers := [2]
  reply := fun cs =>
    match cs.getLast? with
    | some (.evaluate _ k _ _) => .ok (decide (k = 4))
    | _ => .ok false

/-- The same, but a call raises. -/
def raising (bad : Call (List ℚ × ℚ) ℚ → Bool) : Outside (List ℚ × ℚ) ℚ :=
  { quiet with reply := fun cs => match cs.getLast? with | some c => if bad c then .error .exception else .ok false | none => .ok false }

def control (n : Nat) (dump : Option Nat) (dumpTime : Option ℚ) : PyControl ℚ := ⟨n, dump, 3, dumpTime, true, 1, "MT"⟩

end Sample

/-- A run of four steps out of ten, stopped by the breaker: frames at 0, 2 and 4, analyses at 3. -/
example : (main Sample.clock Sample.quiet (Sample.control 10 (some 2) none) ([1, 1, 1, 1, 1, 1], 0) []).1 = .ok ([1, 1], 4) ∧
    (main Sample.clock Sample.quiet (Sample.control 10 (some 2) none) ([1, 1, 1, 1, 1, 1], 0) []).2.filterMap Call.frame? =
      [(0, 0, ([1, 1, 1, 1, 1, 1], 0)), (2, 2, ([1, 1, 1, 1], 2)), (4, 4, ([1, 1], 4))] ∧
    (main Sample.clock Sample.quiet (Sample.control 10 (some 2) none) ([1, 1, 1, 1, 1, 1], 0) []).2.filterMap (Call.register? 1) =
      [(3, 3, ([1, 1, 1], 3))] ∧
    (main Sample.clock Sample.quiet (Sample.control 10 (some 2) none) ([1, 1, 1, 1, 1, 1], 0) []).2.filterMap (Call.evaluate? 0) =
      [(2, 2, ([1, 1, 1, 1], 2)), (4, 4, ([1, 1], 4))] := by
  refine ⟨?_, ?_, ?_, ?_⟩ <;> decide +kernel

/-- A run that ends because nothing is available is cleaned up. -/
example : (main Sample.clock (Sample.raising fun _ => false) (Sample.control 10 (some 2) none) ([1], 0) []).1 = .error .exception ∧
    (main Sample.clock (Sample.raising fun _ => false) (Sample.control 10 (some 2) none) ([1], 0) []).2 =
      [.openTrajectory, .frame 0 0 ([1], 0), .setup 0 0 ([1], 0), .setup 1 0 ([1], 0), .event 1 ([], 1),
       .flush, .finalize 0, .finalize 1] := by
  refine ⟨?_, ?_⟩ <;> decide +kernel

/-- C43. An exception in the set-up of the second analysis: the trajectory has a frame and the first analysis is
set up, but there is no clean-up. -/
theorem C43_setup_raises :
    main Sample.clock (Sample.raising fun c => match c with | .setup 1 _ _ => true | _ => false)
      (Sample.control 10 (some 2) none) ([1], 0) [] =
    (.error .exception, [.openTrajectory, .frame 0 0 ([1], 0), .setup 0 0 ([1], 0), .setup 1 0 ([1], 0)]) := by
  decide +kernel

/-- C43. An exception in the clean-up leaves out the rest of it: when the flush raises no analysis is finalised,
and when the first analysis raises the second is not finalised. -/
theorem C43_clean_up_cut :
    main Sample.clock (Sample.raising fun c => match c with | .flush => true | _ => false)
      (Sample.control 1 (some 2) none) ([1], 0) [] =
    (.error .exception, [.openTrajectory, .frame 0 0 ([1], 0), .setup 0 0 ([1], 0), .setup 1 0 ([1], 0), .event 1 ([], 1),
      .flush]) ∧
    main Sample.clock (Sample.raising fun c => match c with | .finalize 0 => true | _ => false)
      (Sample.control 1 (some 2) none) ([1], 0) [] =
    (.error .exception, [.openTrajectory, .frame 0 0 ([1], 0), .setup 0 0 ([1], 0), .setup 1 0 ([1], 0), .event 1 ([], 1),
      .flush, .finalize 0]) := by
  refine ⟨?_, ?_⟩ <;> decide +kernel

end KMC
