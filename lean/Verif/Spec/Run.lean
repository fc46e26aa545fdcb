import Verif.Model.LatticeModel
import Verif.Spec.Model

/-!
# Runs
-/

set_option linter.unusedSectionVars false

namespace KMC

variable {K : Type _} [Field K] [LinearOrder K]

/-- The state `s` is reached from the input by some run: the constructor and any number of steps with
any random numbers. -/
def Reached (env : Env K) (negLog : K → Option K) (cfg : Config K) (procs : List (Proc K)) (s : Sim K) :
    Prop :=
  ∃ s0 ds, LatticeModel.init env cfg procs = .ok s0 ∧ LatticeModel.run env negLog ds s0 = .ok s

/-- The input and a state reached from it, with what the theorems on runs suppose. -/
structure GoodRun (env : Env K) (n nT : Nat) (negLog : K → Option K) (cfg : Config K)
    (procs : List (Proc K)) (s : Sim K) : Prop where
  input : WellFormed env n nT cfg procs
  custom : env.useCustomRates = true → CustomRatesOk env n nT cfg procs
  reached : Reached env negLog cfg procs s

/-- All rates the model can meet are positive. -/
structure PositiveRates (env : Env K) (procs : List (Proc K)) : Prop where
  constant : ∀ p ∈ procs, 0 < p.rate
  custom : env.useCustomRates = true → ∀ a, 0 < env.callback a

end KMC
