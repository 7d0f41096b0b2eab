import Verif.Driver.Model

/-
What a user expects of the programs behind the command line.
-/
namespace Verif.Driver

open Verif.FileName Verif.Parquet

/-- The parquet solution a flow should start from: ten iterations at most, from the second-order state, all for the
parameters of this run. -/
noncomputable def ownStart {S : Type} (Ph : Physics S) (b : Build) (c : Config) : S :=
  (solve (Ph.prob b c b.lambdaIni) (1 / 10 ^ 6) 10 1 (Ph.prep b c b.lambdaIni)).1.stateIn

/-- The parquet iteration of this run ends converged. -/
noncomputable def ownConverges {S : Type} (Ph : Physics S) (b : Build) (c : Config) : Bool :=
  (solve (Ph.prob b c b.lambdaIni) (1 / 10 ^ 6) 10 1 (Ph.prep b c b.lambdaIni)).2

/-- The parquet solution at a value of the flow parameter, and whether it is converged. -/
noncomputable def ownScan {S : Type} (Ph : Physics S) (b : Build) (c : Config) (Lam : ℚ) : LoopState S × Bool :=
  solve (Ph.prob b c Lam) (1 / 10 ^ 6) 100 1 (Ph.prep b c Lam)

/-- C151, in full: the state from which a flow starts is that of its own parameters, whatever was run before. -/
def StartsFromItsOwnState (S : Type) (b : Build) : Prop :=
  ∀ (Ph : Physics S) (before : List Config) (c : Config) (d : Disk S), (∀ p, d p = none) →
    (prepare Ph b c (before.foldl (fun d c => (prepare Ph b c d).1) d)).2 = .ok (ownStart Ph b c)

/-- The file holds this single state. -/
def Holds {S : Type} (d : Disk S) (p : Str) (s : S) : Prop :=
  ∃ f, d p = some f ∧ f.last = 0 ∧ f.read 0 = some s

/-- C152, in full: after a scan every value of the interaction that corresponds to an admissible flow parameter has its
own result. -/
def ScanComplete (S : Type) (b : Build) (c : Config) : Prop :=
  ∀ (Ph : Physics S) (us : List ℚ) (version : Int) (d : Disk S), ∀ u ∈ us,
    0 ≤ 2 * c.U / u - c.Gamma → 2 * c.U / u - c.Gamma ≤ b.lambdaIni →
    Holds (runParquet Ph b c us version true d).1 (scanFin b c version (2 * c.U / u - c.Gamma))
      (ownScan Ph b c (2 * c.U / u - c.Gamma)).1.stateIn

/-- What the first argument asks for: `n` loops of the flow for a positive number, the parquet equations for zero,
second-order perturbation theory for `-2`. -/
def Asked (n : Int) : Option Task :=
  if n = 0 then some .parquet else if n = -2 then some .pt2 else if 0 < n then some .flow else none

end Verif.Driver
