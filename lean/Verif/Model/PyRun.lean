import Verif.Model.PyControl
import Verif.Model.LatticeModel

/-!
# Model of `KMCLatticeModel.run` (python/src/KMCLib/CoreComponents/KMCLatticeModel.py:91-286)

The simulation is a backend with a state. Trajectory, analyses and breakers are outside: the model keeps the
list of calls that are made to them, and what they answer, in particular whether they raise an exception, is
an arbitrary function of the calls made so far. They are assumed not to change the simulation. Screen output,
the verbosity level, the random number generator and the type checks of the arguments (KMCLatticeModel.py:
113-168) are left out; breakers have a fixed interval.
-/

namespace KMC
namespace PyRun

/-- What the loop uses of the C++ model and the timer. -/
structure Backend (σ K : Type _) where
  available : σ → Nat
  time : σ → K
  propagate : σ → M σ
  single : σ → M σ

/-- The calls of the loop to the outside; `event` marks that `singleStep` has been done. -/
inductive Call (σ K : Type _)
  | openTrajectory
  | frame (step : Nat) (time : K) (state : σ)
  | setup (a : Nat) (time : K) (state : σ)
  | event (step : Nat) (state : σ)
  | register (a step : Nat) (time : K) (state : σ)
  | evaluate (b step : Nat) (time : K) (state : σ)
  | flush
  | finalize (a : Nat)
  deriving DecidableEq, Repr

/-- The outside: is there a trajectory, how many analyses, the intervals of the breakers, and the answer to
the last of a list of calls. The Boolean is the answer of breakers. -/
structure Outside (σ K : Type _) where
  trajectory : Bool
  analyses : Nat
  breakers : List Nat
  reply : List (Call σ K) → M Bool

/-- Python code that makes calls and may raise. -/
def Act (σ K α : Type _) := List (Call σ K) → M α × List (Call σ K)

namespace Act
variable {σ K α β : Type _}

/-- One statement after the other; an exception ends the sequence. -/
def andThen (x : Act σ K α) (f : α → Act σ K β) : Act σ K β := fun log =>
  match x log with
  | (.ok a, log') => f a log'
  | (.error e, log') => (.error e, log')

instance : Monad (Act σ K) where
  pure a := fun log => (.ok a, log)
  bind := andThen

/-- A call to the outside. -/
def call (o : Outside σ K) (c : Call σ K) : Act σ K Bool := fun log => (o.reply (log ++ [c]), log ++ [c])

/-- A mark in the list of calls. -/
def note (c : Call σ K) : Act σ K Unit := fun log => (.ok (), log ++ [c])

/-- Code of the backend. -/
def lift (m : M α) : Act σ K α := fun log => (m, log)

/-- `try: body finally: clean`. -/
def tryFinally (body : Act σ K α) (clean : Act σ K Unit) : Act σ K α := fun log =>
  match clean (body log).2 with
  | (.ok _, log') => ((body log).1, log')
  | (.error e, log') => (.error e, log')

/-- A list of calls. -/
def calls (o : Outside σ K) : List (Call σ K) → Act σ K Unit
  | [] => pure ()
  | c :: cs => do
    let _ ← call o c
    calls o cs

end Act

/-- The variables of the loop. -/
structure Loop (σ K : Type _) where
  state : σ
  lastTime : K
  timeStep : Nat

variable {σ K : Type _} [Field K] [LinearOrder K]

/-- Append to the trajectory if there is one. -/
def append (o : Outside σ K) (step : Nat) (time : K) (state : σ) : Act σ K Unit :=
  Act.calls o (if o.trajectory then [.frame step time state] else [])

/-- KMCLatticeModel.py:224-235 before the event: the equidistant trajectory. -/
def dumpBefore (o : Outside σ K) (dumpTime : Option K) (step : Nat) (l : Loop σ K) (before after : K) :
    Act σ K (Loop σ K) :=
  match dumpTime with
  | none => pure l
  | some d =>
    if d ≤ after - l.lastTime then do
      append o (step - 1) before l.state
      return { l with lastTime := ((l.timeStep + 1 : Nat) : K) * d, timeStep := l.timeStep + 1 }
    else pure l

/-- `step % interval == 0` in Python. -/
def due (interval step : Nat) : M Bool :=
  if interval = 0 then .error .divByZero else .ok (decide (step % interval = 0))

/-- KMCLatticeModel.py:243-252 after the event. A dump interval that is `None` raises a TypeError. -/
def dumpAfter (o : Outside σ K) (dumpTime : Option K) (dump : Option Nat) (step : Nat) (l : Loop σ K) (now : K) :
    Act σ K (Loop σ K) :=
  match dumpTime, dump with
  | some _, _ => pure l
  | none, none => Act.lift (.error .exception)
  | none, some d => do
    let b ← Act.lift (due d step)
    if b then do
      append o step now l.state
      return { l with lastTime := now }
    else pure l

/-- KMCLatticeModel.py:254-259. -/
def analyse (o : Outside σ K) (interval step : Nat) (s : σ) (now : K) : Act σ K Unit := do
  let b ← Act.lift (due interval step)
  Act.calls o (if b then (List.range o.analyses).map (fun a => .register a step now s) else [])

/-- KMCLatticeModel.py:261-272, from breaker number `i`. -/
def breakers (o : Outside σ K) (step : Nat) (s : σ) (now : K) : Nat → List Nat → Act σ K Bool
  | _, [] => pure false
  | i, interval :: rest => do
    let b ← Act.lift (due interval step)
    if b then do
      let stop ← Act.call o (.evaluate i step now s)
      if stop then pure true else breakers o step s now (i + 1) rest
    else breakers o step s now (i + 1) rest

/-- KMCLatticeModel.py:212-276 one turn of the loop. Gives the variables and whether to stop. -/
def turn (B : Backend σ K) (o : Outside σ K) (c : PyControl K) (step : Nat) (l : Loop σ K) : Act σ K (Loop σ K × Bool) :=
  if B.available l.state = 0 then Act.lift (.error .exception)
  else do
    let s1 ← Act.lift (B.propagate l.state)
    let l1 ← dumpBefore o c.dumpTime step { l with state := s1 } (B.time l.state) (B.time s1)
    let s2 ← Act.lift (B.single s1)
    Act.note (.event step s2)
    let l2 ← dumpAfter o c.dumpTime c.dump step { l1 with state := s2 } (B.time s2)
    analyse o c.analyse step s2 (B.time s2)
    let stop ← breakers o step s2 (B.time s2) 0 o.breakers
    return (l2, stop)

/-- KMCLatticeModel.py:209-276 the loop, with `n` turns left and `k` done. -/
def loop (B : Backend σ K) (o : Outside σ K) (c : PyControl K) : Nat → Nat → Loop σ K → Act σ K (Loop σ K)
  | 0, _, l => pure l
  | n + 1, k, l => do
    let r ← turn B o c (k + 1) l
    if r.2 then pure r.1 else loop B o c n (k + 1) r.1

/-- KMCLatticeModel.py:170-196 before the loop. -/
def prelude (B : Backend σ K) (o : Outside σ K) (s : σ) : Act σ K Unit :=
  if B.available s = 0 then Act.lift (.error .exception)
  else Act.calls o ((if o.trajectory then [.openTrajectory, .frame 0 (B.time s) s] else []) ++
    (List.range o.analyses).map (fun a => .setup a (B.time s) s))

/-- KMCLatticeModel.py:278-286 the `finally` block. -/
def cleanUp (o : Outside σ K) : Act σ K Unit :=
  Act.calls o ((if o.trajectory then [.flush] else []) ++ (List.range o.analyses).map (fun a => .finalize a))

/-- KMCLatticeModel.py:170-286. -/
def main (B : Backend σ K) (o : Outside σ K) (c : PyControl K) (s : σ) : Act σ K σ := do
  prelude B o s
  let l ← Act.tryFinally (loop B o c c.steps 0 ⟨s, B.time s, 0⟩) (cleanUp o)
  return l.state

/-- The backend of the simulation; the random numbers of the steps to come are part of the state. Without
numbers the loop of the timer does not end. -/
def ofModel (env : Env K) (negLog : K → Option K) : Backend (Sim K × List (LatticeModel.Draws K)) K where
  available := fun s => Interactions.totalAvailableSites s.1.ms.procs
  time := fun s => s.1.time
  propagate := fun s =>
    match s.2 with
    | [] => .error .diverges
    | d :: _ => do
      let s1 ← LatticeModel.propagateTime negLog s.1 d.time
      return (s1, s.2)
  single := fun s =>
    match s.2 with
    | [] => .error .diverges
    | d :: ds => do
      let s1 ← LatticeModel.singleStep env s.1 d.process d.site
      return (s1, ds)

end PyRun
end KMC
