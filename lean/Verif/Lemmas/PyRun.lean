import Verif.Model.PyRun
import Mathlib.Tactic.Linarith

/-!
# Lemmas on the run loop of the front end
-/

set_option linter.unusedSectionVars false

namespace KMC
namespace PyRun

namespace Act
variable {σ K α β : Type _}

theorem bind_eq (x : Act σ K α) (f : α → Act σ K β) (log : List (Call σ K)) :
    (x >>= f) log = match x log with
      | (.ok a, log') => f a log'
      | (.error e, log') => (.error e, log') := rfl

theorem bind_ok {x : Act σ K α} {f : α → Act σ K β} {log log' : List (Call σ K)} {b : β} :
    (x >>= f) log = (.ok b, log') ↔ ∃ a l1, x log = (.ok a, l1) ∧ f a l1 = (.ok b, log') := by
  rw [bind_eq]
  constructor
  · intro h
    split at h
    · exact ⟨_, _, ‹_›, h⟩
    · simp at h
  · rintro ⟨a, l1, h1, h2⟩
    rw [h1]
    exact h2

theorem pure_ok {a b : α} {log log' : List (Call σ K)} :
    (pure a : Act σ K α) log = (.ok b, log') ↔ a = b ∧ log = log' := by
  show (Except.ok a, log) = (.ok b, log') ↔ _
  rw [Prod.mk.injEq, Except.ok.injEq]

theorem lift_ok {m : M α} {b : α} {log log' : List (Call σ K)} :
    (lift m : Act σ K α) log = (.ok b, log') ↔ m = .ok b ∧ log = log' := by
  unfold lift
  rw [Prod.mk.injEq]

theorem note_ok {c : Call σ K} {log log' : List (Call σ K)} {u : Unit} :
    (note c : Act σ K Unit) log = (.ok u, log') ↔ log' = log ++ [c] := by
  unfold note
  rw [Prod.mk.injEq]
  exact ⟨fun h => h.2.symm, fun h => ⟨rfl, h.symm⟩⟩

theorem call_ok {o : Outside σ K} {c : Call σ K} {log log' : List (Call σ K)} {b : Bool} :
    call o c log = (.ok b, log') ↔ o.reply (log ++ [c]) = .ok b ∧ log' = log ++ [c] := by
  unfold call
  rw [Prod.mk.injEq]
  exact ⟨fun h => ⟨h.1, h.2.symm⟩, fun h => ⟨h.1, h.2.symm⟩⟩

theorem calls_cons (o : Outside σ K) (c : Call σ K) (cs : List (Call σ K)) :
    calls o (c :: cs) = (call o c >>= fun _ => calls o cs) := rfl

theorem calls_ok {o : Outside σ K} {cs : List (Call σ K)} {u : Unit} : ∀ {log log' : List (Call σ K)},
    calls o cs log = (.ok u, log') ↔ log' = log ++ cs ∧
      ∀ pre c suf, cs = pre ++ c :: suf → ∃ r, o.reply (log ++ pre ++ [c]) = .ok r := by
  induction cs with
  | nil =>
    intro log log'
    show (Except.ok (), log) = (.ok u, log') ↔ _
    rw [Prod.mk.injEq]
    simp [eq_comm]
  | cons c cs ih =>
    intro log log'
    rw [calls_cons, bind_ok]
    constructor
    · rintro ⟨b, l1, h1, h2⟩
      replace h1 := call_ok.1 h1; obtain ⟨h1, rfl⟩ := h1
      obtain ⟨rfl, h3⟩ := ih.1 h2
      refine ⟨by simp, ?_⟩
      intro pre c' suf hs
      cases pre with
      | nil =>
        simp only [List.nil_append, List.cons.injEq] at hs
        obtain ⟨rfl, -⟩ := hs
        exact ⟨b, by simpa using h1⟩
      | cons p pre =>
        simp only [List.cons_append, List.cons.injEq] at hs
        obtain ⟨rfl, hs⟩ := hs
        obtain ⟨r, hr⟩ := h3 pre c' suf hs
        exact ⟨r, by simpa using hr⟩
    · rintro ⟨rfl, h⟩
      obtain ⟨r, hr⟩ := h [] c cs rfl
      refine ⟨r, log ++ [c], call_ok.2 ⟨by simpa using hr, rfl⟩, ih.2 ⟨by simp, ?_⟩⟩
      intro pre c' suf hs
      obtain ⟨r, hr⟩ := h (c :: pre) c' suf (by simp [hs])
      exact ⟨r, by simpa using hr⟩

/-- All calls made by `x` satisfy `P`, however it ends. -/
def Only (P : Call σ K → Prop) (x : Act σ K α) : Prop :=
  ∀ log, ∃ new, (x log).2 = log ++ new ∧ ∀ c ∈ new, P c

theorem Only.bind {P : Call σ K → Prop} {x : Act σ K α} {f : α → Act σ K β} (hx : Only P x) (hf : ∀ a, Only P (f a)) :
    Only P (x >>= f) := by
  intro log
  obtain ⟨new, h1, h2⟩ := hx log
  rw [bind_eq]
  split
  · rename_i a log' h
    rw [h] at h1
    obtain ⟨new', h3, h4⟩ := hf a log'
    refine ⟨new ++ new', by rw [h3]; simp only at h1; rw [h1, List.append_assoc], ?_⟩
    intro c hc
    exact (List.mem_append.1 hc).elim (h2 c) (h4 c)
  · rename_i e log' h
    rw [h] at h1
    exact ⟨new, h1, h2⟩

theorem Only.pure {P : Call σ K → Prop} (a : α) : Only P (pure a : Act σ K α) :=
  fun log => ⟨[], by simp; rfl, by simp⟩

theorem Only.lift {P : Call σ K → Prop} (m : M α) : Only P (lift m : Act σ K α) :=
  fun log => ⟨[], by simp [Act.lift], by simp⟩

theorem Only.note {P : Call σ K → Prop} {c : Call σ K} (h : P c) : Only P (note c) :=
  fun log => ⟨[c], rfl, by simpa using h⟩

theorem Only.call {P : Call σ K → Prop} {o : Outside σ K} {c : Call σ K} (h : P c) : Only P (call o c) :=
  fun log => ⟨[c], rfl, by simpa using h⟩

theorem Only.calls {P : Call σ K → Prop} {o : Outside σ K} : ∀ {cs : List (Call σ K)}, (∀ c ∈ cs, P c) →
    Only P (calls o cs)
  | [], _ => Only.pure ()
  | c :: cs, h => by
    rw [calls_cons]
    exact (Only.call (h c (by simp))).bind fun _ => Only.calls (fun c hc => h c (by simp [hc]))

end Act

open Act
variable {σ K : Type _} [Field K] [LinearOrder K]

theorem due_ok {interval step : Nat} {b : Bool} :
    due interval step = .ok b ↔ interval ≠ 0 ∧ b = decide (interval ∣ step) := by
  unfold due
  split
  · rename_i h; simp [h]
  · rename_i h
    rw [Except.ok.injEq]
    constructor
    · rintro rfl; exact ⟨h, by congr 1; rw [Nat.dvd_iff_mod_eq_zero]⟩
    · rintro ⟨-, rfl⟩; congr 1; rw [Nat.dvd_iff_mod_eq_zero]

/-- The frame before the event. -/
def beforeCalls (o : Outside σ K) (dumpTime : Option K) (step : Nat) (last before after : K) (s1 : σ) : List (Call σ K) :=
  match dumpTime with
  | none => []
  | some d => if d ≤ after - last ∧ o.trajectory = true then [.frame (step - 1) before s1] else []

/-- The frame after the event. -/
def afterCalls (o : Outside σ K) (dumpTime : Option K) (d step : Nat) (now : K) (s2 : σ) : List (Call σ K) :=
  if dumpTime = none ∧ d ∣ step ∧ o.trajectory = true then [.frame step now s2] else []

/-- The analyses. -/
def registerCalls (o : Outside σ K) (a step : Nat) (now : K) (s2 : σ) : List (Call σ K) :=
  if a ∣ step then (List.range o.analyses).map (fun i => .register i step now s2) else []

/-- The breakers that are due, from number `i`. -/
def dueCalls (step : Nat) (now : K) (s2 : σ) (i : Nat) (ws : List Nat) : List (Call σ K) :=
  ((ws.zipIdx i).filter (fun w => decide (w.1 ∣ step))).map (fun w => .evaluate w.2 step now s2)

theorem append_ok {o : Outside σ K} {step : Nat} {time : K} {s : σ} {log log' : List (Call σ K)} {u : Unit}
    (h : append o step time s log = (.ok u, log')) :
    log' = log ++ (if o.trajectory then [.frame step time s] else []) := by
  unfold append at h
  exact (calls_ok.1 h).1

theorem dumpBefore_ok {o : Outside σ K} {dumpTime : Option K} {step : Nat} {l l' : Loop σ K} {before after : K}
    {log log' : List (Call σ K)} (h : dumpBefore o dumpTime step l before after log = (.ok l', log')) :
    log' = log ++ beforeCalls o dumpTime step l.lastTime before after l.state ∧ l'.state = l.state ∧
    (dumpTime = none → l' = l) ∧
    ∀ d, dumpTime = some d →
      (d ≤ after - l.lastTime → l'.timeStep = l.timeStep + 1 ∧ l'.lastTime = ((l.timeStep + 1 : Nat) : K) * d) ∧
      (¬ d ≤ after - l.lastTime → l' = l) := by
  unfold dumpBefore at h
  unfold beforeCalls
  cases dumpTime with
  | none =>
    obtain ⟨rfl, rfl⟩ := pure_ok.1 h
    simp
  | some d =>
    simp only at h ⊢
    split at h
    · rename_i hd
      obtain ⟨u, l1, h1, h2⟩ := Act.bind_ok.1 h
      obtain ⟨rfl, rfl⟩ := pure_ok.1 h2
      have := append_ok h1
      refine ⟨?_, rfl, by simp, ?_⟩
      · rw [this]
        congr 1
        simp [hd]
      · intro d' hd'
        obtain rfl := Option.some.inj hd'
        exact ⟨fun _ => ⟨rfl, rfl⟩, fun hn => absurd hd hn⟩
    · rename_i hd
      obtain ⟨rfl, rfl⟩ := pure_ok.1 h
      refine ⟨by simp [hd], rfl, by simp, ?_⟩
      intro d' hd'
      obtain rfl := Option.some.inj hd'
      exact ⟨fun hn => absurd hn hd, fun _ => rfl⟩

theorem dumpAfter_ok {o : Outside σ K} {dumpTime : Option K} {dump : Option Nat} {step : Nat} {l l' : Loop σ K} {now : K}
    {log log' : List (Call σ K)} (h : dumpAfter o dumpTime dump step l now log = (.ok l', log')) :
    (dumpTime = none → ∃ d, dump = some d ∧ d ≠ 0) ∧ l'.state = l.state ∧
    (∀ d, dumpTime = some d → l' = l) ∧
    ∃ d, (dumpTime = none → dump = some d) ∧ log' = log ++ afterCalls o dumpTime d step now l.state := by
  unfold dumpAfter at h
  unfold afterCalls
  cases dumpTime with
  | some t =>
    obtain ⟨rfl, rfl⟩ := pure_ok.1 h
    exact ⟨by simp, rfl, by simp, 0, by simp, by simp⟩
  | none =>
    cases dump with
    | none => exact absurd (lift_ok.1 h).1 (by simp)
    | some d =>
      simp only at h
      obtain ⟨b, l1, h1, h2⟩ := Act.bind_ok.1 h
      replace h1 := lift_ok.1 h1; obtain ⟨h1, rfl⟩ := h1
      obtain ⟨hd, rfl⟩ := due_ok.1 h1
      by_cases hdvd : d ∣ step
      · rw [if_pos (by simpa using hdvd)] at h2
        obtain ⟨u, l1, h3, h4⟩ := Act.bind_ok.1 h2
        obtain ⟨rfl, rfl⟩ := pure_ok.1 h4
        refine ⟨fun _ => ⟨d, rfl, hd⟩, rfl, by simp, d, by simp, ?_⟩
        rw [append_ok h3]
        congr 1
        simp [hdvd]
      · rw [if_neg (by simpa using hdvd)] at h2
        obtain ⟨rfl, rfl⟩ := pure_ok.1 h2
        exact ⟨fun _ => ⟨d, rfl, hd⟩, rfl, by simp, d, by simp, by simp [hdvd]⟩

theorem analyse_ok {o : Outside σ K} {interval step : Nat} {s : σ} {now : K} {log log' : List (Call σ K)} {u : Unit}
    (h : analyse o interval step s now log = (.ok u, log')) :
    interval ≠ 0 ∧ log' = log ++ registerCalls o interval step now s := by
  unfold analyse at h
  obtain ⟨b, l1, h1, h2⟩ := Act.bind_ok.1 h
  replace h1 := lift_ok.1 h1; obtain ⟨h1, rfl⟩ := h1
  obtain ⟨hd, rfl⟩ := due_ok.1 h1
  refine ⟨hd, ?_⟩
  rw [(calls_ok.1 h2).1]
  unfold registerCalls
  congr 1
  by_cases hh : interval ∣ step <;> simp [hh]

/-- The breakers are asked in order, those before the last one answer no; the loop stops if the last one
answers yes, and otherwise all have been asked. -/
theorem breakers_ok {o : Outside σ K} {step : Nat} {s : σ} {now : K} {stop : Bool} : ∀ {ws : List Nat} {i : Nat}
    {log log' : List (Call σ K)}, breakers o step s now i ws log = (.ok stop, log') →
    ∃ asked rest, dueCalls step now s i ws = asked ++ rest ∧ log' = log ++ asked ∧
      (stop = false → rest = []) ∧
      (∀ pre c suf, asked = pre ++ c :: suf → o.reply (log ++ pre ++ [c]) = .ok (decide (stop = true ∧ suf = []))) ∧
      (stop = true → asked ≠ []) ∧ (stop = false → ∀ w ∈ ws, w ≠ 0) := by
  intro ws
  induction ws with
  | nil =>
    intro i log log' h
    obtain ⟨rfl, rfl⟩ := pure_ok.1 h
    exact ⟨[], [], rfl, by simp, by simp, by simp, by simp, by simp⟩
  | cons w ws ih =>
    intro i log log' h
    unfold breakers at h
    obtain ⟨b, l1, h1, h2⟩ := Act.bind_ok.1 h
    replace h1 := lift_ok.1 h1; obtain ⟨h1, rfl⟩ := h1
    obtain ⟨hd, rfl⟩ := due_ok.1 h1
    by_cases hdvd : w ∣ step
    · rw [if_pos (by simpa using hdvd)] at h2
      have hdue : dueCalls step now s i (w :: ws) = .evaluate i step now s :: dueCalls step now s (i + 1) ws := by
        simp [dueCalls, List.zipIdx_cons, hdvd]
      obtain ⟨r, l1, h3, h4⟩ := Act.bind_ok.1 h2
      replace h3 := call_ok.1 h3; obtain ⟨h3, rfl⟩ := h3
      cases r with
      | true =>
        rw [if_pos rfl] at h4
        obtain ⟨rfl, rfl⟩ := pure_ok.1 h4
        refine ⟨[.evaluate i step now s], dueCalls step now s (i + 1) ws, by rw [hdue]; rfl, rfl, by simp, ?_, by simp, by simp⟩
        intro pre c suf hs
        cases pre with
        | nil =>
          simp only [List.nil_append, List.cons.injEq] at hs
          obtain ⟨rfl, rfl⟩ := hs
          simpa using h3
        | cons p pre => simp at hs
      | false =>
        rw [if_neg (by simp)] at h4
        obtain ⟨asked, rest, e1, e2, e3, e4, e5, e6⟩ := ih h4
        refine ⟨.evaluate i step now s :: asked, rest, by rw [hdue, e1]; rfl, by rw [e2]; simp, e3, ?_, by simp, ?_⟩
        · intro pre c suf hs
          cases pre with
          | nil =>
            simp only [List.nil_append, List.cons.injEq] at hs
            obtain ⟨rfl, rfl⟩ := hs
            have : ¬ (stop = true ∧ asked = []) := fun hh => e5 hh.1 hh.2
            simpa [this] using h3
          | cons p pre =>
            simp only [List.cons_append, List.cons.injEq] at hs
            obtain ⟨rfl, hs⟩ := hs
            have := e4 pre c suf hs
            simpa using this
        · intro hst w' hw'
          rcases List.mem_cons.1 hw' with rfl | hw'
          · exact hd
          · exact e6 hst w' hw'
    · rw [if_neg (by simpa using hdvd)] at h2
      have hdue : dueCalls step now s i (w :: ws) = dueCalls step now s (i + 1) ws := by
        simp [dueCalls, List.zipIdx_cons, hdvd]
      obtain ⟨asked, rest, e1, e2, e3, e4, e5, e6⟩ := ih h2
      refine ⟨asked, rest, by rw [hdue, e1], e2, e3, e4, e5, ?_⟩
      intro hst w' hw'
      rcases List.mem_cons.1 hw' with rfl | hw'
      · exact hd
      · exact e6 hst w' hw'

/-- One turn that ends properly. -/
theorem turn_ok {B : Backend σ K} {o : Outside σ K} {c : PyControl K} {step : Nat} {l l' : Loop σ K} {stop : Bool}
    {log log' : List (Call σ K)} (h : turn B o c step l log = (.ok (l', stop), log')) :
    ∃ s1 d asked rest, B.available l.state ≠ 0 ∧ B.propagate l.state = .ok s1 ∧ B.single s1 = .ok l'.state ∧
      (c.dumpTime = none → c.dump = some d ∧ d ≠ 0) ∧ c.analyse ≠ 0 ∧
      log' = log ++ (beforeCalls o c.dumpTime step l.lastTime (B.time l.state) (B.time s1) s1 ++ (.event step l'.state ::
        (afterCalls o c.dumpTime d step (B.time l'.state) l'.state ++
          (registerCalls o c.analyse step (B.time l'.state) l'.state ++ asked)))) ∧
      (∀ t, c.dumpTime = some t →
        (t ≤ B.time s1 - l.lastTime → l'.timeStep = l.timeStep + 1 ∧ l'.lastTime = ((l.timeStep + 1 : Nat) : K) * t) ∧
        (¬ t ≤ B.time s1 - l.lastTime → l'.timeStep = l.timeStep ∧ l'.lastTime = l.lastTime)) ∧
      dueCalls step (B.time l'.state) l'.state 0 o.breakers = asked ++ rest ∧
      (stop = false → rest = []) ∧ (stop = true → asked ≠ []) ∧
      (∀ pre c suf, asked = pre ++ c :: suf → ∃ before, log' = before ++ asked ∧
        o.reply (before ++ pre ++ [c]) = .ok (decide (stop = true ∧ suf = []))) := by
  unfold turn at h
  split at h
  · exact absurd (lift_ok.1 h).1 (by simp)
  rename_i hav
  obtain ⟨s1, g1, h1, h⟩ := Act.bind_ok.1 h
  replace h1 := lift_ok.1 h1; obtain ⟨h1, rfl⟩ := h1
  obtain ⟨l1, g2, h2, h⟩ := Act.bind_ok.1 h
  obtain ⟨h2, h2s, h2n, h2d⟩ := dumpBefore_ok h2
  obtain ⟨s2, g3, h3, h⟩ := Act.bind_ok.1 h
  replace h3 := lift_ok.1 h3; obtain ⟨h3, rfl⟩ := h3
  obtain ⟨u, g4, h4, h⟩ := Act.bind_ok.1 h
  have h4 := note_ok.1 h4
  obtain ⟨l2, g5, h5, h⟩ := Act.bind_ok.1 h
  obtain ⟨h5n, h5s, h5t, d, hd, h5⟩ := dumpAfter_ok h5
  obtain ⟨u, g6, h6, h⟩ := Act.bind_ok.1 h
  obtain ⟨ha, h6⟩ := analyse_ok h6
  obtain ⟨b, g7, h7, h⟩ := Act.bind_ok.1 h
  obtain ⟨asked, rest, e1, e2, e3, e4, e5, e6⟩ := breakers_ok h7
  obtain ⟨h8, rfl⟩ := pure_ok.1 h
  simp only [Prod.mk.injEq] at h8
  obtain ⟨rfl, rfl⟩ := h8
  have h5s : l2.state = s2 := h5s
  subst h5s
  refine ⟨s1, d, asked, rest, hav, h1, h3, ?_, ha, ?_, ?_, e1, e3, e5, ?_⟩
  · intro hn
    obtain ⟨d', hd', hd0⟩ := h5n hn
    rw [hd hn] at hd'
    obtain rfl := Option.some.inj hd'
    exact ⟨hd hn, hd0⟩
  · rw [e2, h6, h5, h4, h2]
    simp [List.append_assoc]
  · intro t ht
    have := h5t t ht
    rw [this]
    obtain ⟨q1, q2⟩ := h2d t ht
    exact ⟨q1, fun hn => by rw [q2 hn]; exact ⟨rfl, rfl⟩⟩
  · intro pre c suf hs
    exact ⟨g6, e2, e4 pre c suf hs⟩

/-- The turns of a loop that ends properly. -/
theorem loop_ok {B : Backend σ K} {o : Outside σ K} {c : PyControl K} : ∀ {n k : Nat} {l l' : Loop σ K}
    {log log' : List (Call σ K)}, loop B o c n k l log = (.ok l', log') →
    ∃ (m : Nat) (ls : Nat → Loop σ K) (logs : Nat → List (Call σ K)) (stop : Nat → Bool), m ≤ n ∧
      ls 0 = l ∧ logs 0 = log ∧ ls m = l' ∧ logs m = log' ∧
      (∀ i, i < m → turn B o c (k + i + 1) (ls i) (logs i) = (.ok (ls (i + 1), stop i), logs (i + 1))) ∧
      (∀ i, i + 1 < m → stop i = false) ∧ (m = n ∨ ∃ i, i + 1 = m ∧ stop i = true) ∧
      (∀ i, i < m → stop i = true → i + 1 = m) := by
  intro n
  induction n with
  | zero =>
    intro k l l' log log' h
    obtain ⟨rfl, rfl⟩ := pure_ok.1 h
    exact ⟨0, fun _ => l, fun _ => log, fun _ => false, le_refl _, rfl, rfl, rfl, rfl, by simp, by simp, .inl rfl, by simp⟩
  | succ n ih =>
    intro k l l' log log' h
    unfold loop at h
    obtain ⟨⟨l1, st⟩, g1, h1, h⟩ := Act.bind_ok.1 h
    simp only at h
    cases st with
    | true =>
      rw [if_pos rfl] at h
      obtain ⟨rfl, rfl⟩ := pure_ok.1 h
      refine ⟨1, fun i => if i = 0 then l else l1, fun i => if i = 0 then log else g1, fun _ => true, by omega, rfl, rfl,
        rfl, rfl, ?_, by omega, .inr ⟨0, rfl, rfl⟩, by omega⟩
      intro i hi
      obtain rfl : i = 0 := by omega
      simpa using h1
    | false =>
      rw [if_neg (by simp)] at h
      obtain ⟨m, ls, logs, stop, a1, a2, a3, a4, a5, a6, a7, a8, a9⟩ := ih h
      refine ⟨m + 1, fun i => match i with | 0 => l | j + 1 => ls j, fun i => match i with | 0 => log | j + 1 => logs j,
        fun i => match i with | 0 => false | j + 1 => stop j, by omega, rfl, rfl, a4, a5, ?_, ?_, ?_, ?_⟩
      · intro i hi
        cases i with
        | zero => simpa [a2, a3] using h1
        | succ j =>
          have := a6 j (by omega)
          rw [show k + 1 + j + 1 = k + (j + 1) + 1 by omega] at this
          exact this
      · intro i hi
        cases i with
        | zero => rfl
        | succ j => exact a7 j (by omega)
      · rcases a8 with rfl | ⟨i, hi, hs⟩
        · exact .inl rfl
        · exact .inr ⟨i + 1, by omega, hs⟩
      · intro i hi hs
        cases i with
        | zero => simp at hs
        | succ j => have := a9 j (by omega) hs; omega

end PyRun
end KMC
