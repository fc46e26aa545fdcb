import Verif.Lemmas.PyRun
import Verif.Lemmas.Monad
import Verif.Spec.Run
import Mathlib.Data.Rat.Floor
import Mathlib.Tactic.Ring
import Mathlib.Tactic.Linarith

/-!
# Properties C41 to C44: control parameters and the run loop of the front end
-/

set_option linter.unusedSectionVars false

namespace KMC
open PyRun

section
variable {σ K : Type _} [Field K] [LinearOrder K]

/-! ### C41 -/

/-- C41. Accepted parameters: exactly one of the two ways of dumping is active, the time interval is positive,
the numbers are the given ones or the defaults. -/
theorem C41_accepted (steps dump analyse seed : Option Int) (dumpTime : Option K) (rng : Option String) (c : PyControl K)
    (h : PyControl.make steps dump analyse seed dumpTime rng = .ok c) :
    (c.dump.isSome = true ↔ c.dumpTime = none) ∧ (∀ t, c.dumpTime = some t → 0 < t) ∧ c.dumpTime = dumpTime ∧
    ((c.steps : Int) = steps.getD 0) ∧ ((c.analyse : Int) = analyse.getD 1) ∧
    (dumpTime = none → c.dump.map (fun d : Nat => (d : Int)) = some (dump.getD 1)) ∧
    (c.seed : Int) = seed.getD 1 ∧ (c.timeSeed = true ↔ seed = none) ∧
    c.rng ∈ ["MT", "MINSTD", "RANLUX24", "RANLUX48", "DEVICE"] := by
  have hint : ∀ (p : Option Int) (d : Int) (n : Nat), PyControl.checkPositiveInteger p d = .ok n → (n : Int) = p.getD d := by
    intro p d n hp
    unfold PyControl.checkPositiveInteger at hp
    dsimp only at hp
    split at hp
    · cases hp
    · rw [← Except.ok.inj hp]
      omega
  unfold PyControl.make at h
  obtain ⟨n, h1, h⟩ := bind_ok.1 h
  obtain ⟨d, h2, h⟩ := bind_ok.1 h
  obtain ⟨a, h3, h⟩ := bind_ok.1 h
  obtain ⟨s, h4, h⟩ := bind_ok.1 h
  obtain ⟨t, h5, h⟩ := bind_ok.1 h
  obtain ⟨d', h6, h⟩ := bind_ok.1 h
  obtain ⟨r, h7, h⟩ := bind_ok.1 h
  have h := Except.ok.inj h
  subst h
  have ht : t = dumpTime ∧ ∀ x, t = some x → 0 < x := by
    unfold PyControl.checkDumpTime at h5
    split at h5
    · rw [← Except.ok.inj h5]; simp
    · split at h5
      · cases h5
      · rename_i hx
        rw [← Except.ok.inj h5]
        exact ⟨rfl, fun y hy => by rw [← Option.some.inj hy]; exact not_le.1 hx⟩
  have hd : d.map (fun d : Nat => (d : Int)) = dump := by
    unfold PyControl.checkDump at h2
    split at h2
    · rw [← Except.ok.inj h2]; rfl
    · obtain ⟨x, e1, e2⟩ := bind_ok.1 h2
      rw [← Except.ok.inj e2]
      simpa using hint _ _ _ e1
  have hb : (d'.isSome = true ↔ t = none) ∧ (t = none → d'.map (fun d : Nat => (d : Int)) = some (dump.getD 1)) := by
    unfold PyControl.checkBoth at h6
    cases d with
    | none =>
      simp only [Option.map_none] at hd
      cases t with
      | none => rw [← Except.ok.inj h6, ← hd]; simp
      | some x => rw [← Except.ok.inj h6]; simp
    | some y =>
      simp only [Option.map_some] at hd
      cases t with
      | none => rw [← Except.ok.inj h6, ← hd]; simp
      | some x => cases h6
  refine ⟨hb.1, ht.2, ht.1, hint _ _ _ h1, hint _ _ _ h3, ?_, hint _ _ _ h4, ?_, ?_⟩
  · intro hn; exact hb.2 (by rw [ht.1]; exact hn)
  · cases seed <;> simp
  · unfold PyControl.checkRng at h7
    dsimp only at h7
    split at h7
    · rename_i hr; rw [← Except.ok.inj h7]; exact hr
    · cases h7

example : PyControl.make (K := ℚ) (some 10) none none none none none =
    .ok ⟨10, some 1, 1, none, true, 1, "MT"⟩ := by decide +kernel

example : PyControl.make (K := ℚ) (some 10) none (some 3) (some 7) (some (1 / 2)) (some "MINSTD") =
    .ok ⟨10, none, 3, some (1 / 2), false, 7, "MINSTD"⟩ := by decide +kernel

/-- C41. Negative numbers, a time interval that is not positive, both ways of dumping, and unknown random
number generators are rejected. -/
theorem C41_rejected :
    PyControl.make (K := ℚ) (some (-1)) none none none none none = .error .exception ∧
    PyControl.make (K := ℚ) none (some (-1)) none none none none = .error .exception ∧
    PyControl.make (K := ℚ) none none (some (-1)) none none none = .error .exception ∧
    PyControl.make (K := ℚ) none none none (some (-1)) none none = .error .exception ∧
    PyControl.make (K := ℚ) none none none none (some 0) none = .error .exception ∧
    PyControl.make (K := ℚ) none (some 1) none none (some 1) none = .error .exception ∧
    PyControl.make (K := ℚ) none none none none none (some "X") = .error .exception := by
  refine ⟨?_, ?_, ?_, ?_, ?_, ?_, ?_⟩ <;> decide +kernel

/-- C41. Intervals of zero steps are accepted. -/
theorem C41_zero_accepted :
    PyControl.make (K := ℚ) (some 10) (some 0) none none none none = .ok ⟨10, some 0, 1, none, true, 1, "MT"⟩ ∧
    PyControl.make (K := ℚ) (some 10) none (some 0) none none none = .ok ⟨10, some 1, 0, none, true, 1, "MT"⟩ := by
  refine ⟨?_, ?_⟩ <;> decide +kernel

/-- C41. No run with such an interval gets through its first step. -/
theorem C41_zero_fails (B : Backend σ K) (o : Outside σ K) (c : PyControl K) (s s' : σ) (log log' : List (Call σ K))
    (hz : c.analyse = 0 ∨ (c.dump = some 0 ∧ c.dumpTime = none)) (hn : c.steps ≠ 0) :
    main B o c s log ≠ (.ok s', log') := by
  intro h
  unfold main at h
  obtain ⟨u, g1, h1, h⟩ := Act.bind_ok.1 h
  obtain ⟨l, g2, h2, h⟩ := Act.bind_ok.1 h
  unfold Act.tryFinally at h2
  split at h2
  · simp only [Prod.mk.injEq] at h2
    obtain ⟨h2, -⟩ := h2
    obtain ⟨m, ls, logs, stop, a1, a2, a3, a4, a5, a6, a7, a8, a9⟩ := loop_ok (log' := _) (Prod.ext h2 rfl)
    have hm : 0 < m := by rcases a8 with rfl | ⟨i, hi, -⟩ <;> omega
    obtain ⟨s1, d, asked, rest, -, -, -, b1, b2, -⟩ := turn_ok (a6 0 hm)
    rcases hz with hz | ⟨hz, ht⟩
    · exact b2 hz
    · obtain ⟨b3, b4⟩ := b1 ht
      rw [hz] at b3
      exact b4 (Option.some.inj b3).symm
  · simp at h2

/-- The faults of an action are of the given kind. -/
def Act.Fails {α : Type _} (Q : Fault → Prop) (x : Act σ K α) : Prop := ∀ log e, (x log).1 = .error e → Q e

theorem Act.Fails.bind {α β : Type _} {Q : Fault → Prop} {x : Act σ K α} {f : α → Act σ K β} (hx : Act.Fails Q x)
    (hf : ∀ a, Act.Fails Q (f a)) : Act.Fails Q (x >>= f) := by
  intro log e h
  rw [Act.bind_eq] at h
  split at h
  · exact hf _ _ _ h
  · rename_i h'
    exact hx log e (by rw [h', ← Except.error.inj h])

theorem Act.Fails.pure {α : Type _} {Q : Fault → Prop} (a : α) : Act.Fails Q (pure a : Act σ K α) :=
  fun _ _ h => by cases h

theorem Act.Fails.calls {Q : Fault → Prop} {o : Outside σ K} (ho : ∀ cs e, o.reply cs = .error e → Q e) :
    ∀ cs : List (Call σ K), Act.Fails Q (Act.calls o cs)
  | [] => Act.Fails.pure ()
  | c :: cs => by
    rw [Act.calls_cons]
    exact Act.Fails.bind (fun log e h => ho _ e h) fun _ => Act.Fails.calls ho cs

/-- C41. Where a fault of a run comes from when the intervals are not zero: the backend, the outside, or the
error that no process is available. In particular there is no division by zero. Partial: intervals of zero
are accepted (`C41_zero_accepted`). -/
theorem C41_runnable_partial (steps dump analyse seed : Option Int) (dumpTime : Option K) (rng : Option String)
    (c : PyControl K) (h : PyControl.make steps dump analyse seed dumpTime rng = .ok c) (h1 : dump ≠ some 0)
    (h2 : analyse ≠ some 0) (B : Backend σ K) (o : Outside σ K) (ho : ∀ w ∈ o.breakers, w ≠ 0) (s : σ) (e : Fault)
    (he : (main B o c s []).1 = .error e) :
    e = .exception ∨ (∃ x, B.propagate x = .error e ∨ B.single x = .error e) ∨ ∃ cs, o.reply cs = .error e := by
  obtain ⟨c1, c2, c3, c4, c5, c6, -⟩ := C41_accepted steps dump analyse seed dumpTime rng c h
  have ha : c.analyse ≠ 0 := by
    intro h0
    rw [h0] at c5
    cases analyse with
    | none => simp at c5
    | some a => simp only [Option.getD_some] at c5; exact h2 (by rw [← c5]; rfl)
  have hdump : c.dumpTime = none → ∃ d, c.dump = some d ∧ d ≠ 0 := by
    intro hn
    obtain ⟨d, hd⟩ := Option.isSome_iff_exists.1 (c1.2 hn)
    refine ⟨d, hd, ?_⟩
    rintro rfl
    have := c6 (by rw [← c3]; exact hn)
    rw [hd] at this
    cases dump with
    | none => simp at this
    | some x => simp at this; exact h1 (by rw [← this])
  let Q : Fault → Prop := fun e => e = .exception ∨ (∃ x, B.propagate x = .error e ∨ B.single x = .error e) ∨
    ∃ cs, o.reply cs = .error e
  have hdue : ∀ w k, w ≠ 0 → Act.Fails (σ := σ) (K := K) Q (Act.lift (due w k)) := by
    intro w k hw log e he
    unfold Act.lift due at he
    rw [if_neg hw] at he
    cases he
  have hcalls : ∀ cs, Act.Fails Q (Act.calls o cs) := Act.Fails.calls fun cs e h => .inr (.inr ⟨cs, h⟩)
  have hraise : ∀ {α : Type _}, Act.Fails (σ := σ) (K := K) Q (Act.lift (.error .exception : M α)) := by
    intro α log e he
    exact .inl (Except.error.inj he).symm
  have hbefore : ∀ k l x y, Act.Fails Q (dumpBefore o c.dumpTime k l x y) := by
    intro k l x y
    unfold dumpBefore
    split
    · exact Act.Fails.pure _
    · split
      · exact Act.Fails.bind (hcalls _) fun _ => Act.Fails.pure _
      · exact Act.Fails.pure _
  have hafter : ∀ k l x, Act.Fails Q (dumpAfter o c.dumpTime c.dump k l x) := by
    intro k l x
    unfold dumpAfter
    split
    · exact Act.Fails.pure _
    · rename_i ht hd
      obtain ⟨d, hd', -⟩ := hdump ht
      rw [hd] at hd'; cases hd'
    · rename_i d ht hd
      obtain ⟨d', hd', hd0⟩ := hdump ht
      rw [hd] at hd'
      obtain rfl := Option.some.inj hd'
      refine Act.Fails.bind (hdue _ _ hd0) fun b => ?_
      split
      · exact Act.Fails.bind (hcalls _) fun _ => Act.Fails.pure _
      · exact Act.Fails.pure _
  have hbreak : ∀ k x t (ws : List Nat) i, (∀ w ∈ ws, w ≠ 0) → Act.Fails Q (breakers o k x t i ws) := by
    intro k x t ws
    induction ws with
    | nil => intro i _; exact Act.Fails.pure _
    | cons w ws ih =>
      intro i hw
      unfold breakers
      refine Act.Fails.bind (hdue _ _ (hw w (by simp))) fun b => ?_
      split
      · refine Act.Fails.bind (fun log e h => .inr (.inr ⟨_, h⟩)) fun st => ?_
        split
        · exact Act.Fails.pure _
        · exact ih _ fun w hw' => hw w (by simp [hw'])
      · exact ih _ fun w hw' => hw w (by simp [hw'])
  have hturn : ∀ k l, Act.Fails Q (turn B o c k l) := by
    intro k l
    unfold turn
    split
    · exact hraise
    refine Act.Fails.bind (fun log e h => .inr (.inl ⟨_, .inl h⟩)) fun s1 => ?_
    refine Act.Fails.bind (hbefore _ _ _ _) fun l1 => ?_
    refine Act.Fails.bind (fun log e h => .inr (.inl ⟨_, .inr h⟩)) fun s2 => ?_
    refine Act.Fails.bind (fun log e h => by cases h) fun _ => ?_
    refine Act.Fails.bind (hafter _ _ _) fun l2 => ?_
    refine Act.Fails.bind (Act.Fails.bind (hdue _ _ ha) fun b => hcalls _) fun _ => ?_
    refine Act.Fails.bind (hbreak _ _ _ _ _ ho) fun st => Act.Fails.pure _
  have hloop : ∀ n k l, Act.Fails Q (loop B o c n k l) := by
    intro n
    induction n with
    | zero => intro k l; exact Act.Fails.pure _
    | succ n ih =>
      intro k l
      unfold loop
      refine Act.Fails.bind (hturn _ _) fun r => ?_
      split
      · exact Act.Fails.pure _
      · exact ih _ _
  have hprelude : Act.Fails Q (prelude B o s) := by
    unfold prelude
    split
    · exact hraise
    · exact hcalls _
  have hmain : Act.Fails Q (main B o c s) := by
    unfold main
    refine Act.Fails.bind hprelude fun _ => Act.Fails.bind ?_ fun _ => Act.Fails.pure _
    intro log e h
    unfold Act.tryFinally at h
    split at h
    · exact hloop _ _ _ _ _ h
    · rename_i h'
      exact hcalls _ _ e (by unfold cleanUp at h'; rw [h', ← Except.error.inj h])
  exact hmain [] e he

end
end KMC
