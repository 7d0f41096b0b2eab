import Verif.Nan.Model

/-
What a user expects of the norm of data: it is NaN if some of the data are, and otherwise their largest modulus.
-/
namespace Verif.Nan

/-- Some element is NaN. -/
def Poisoned (l : List Dbl) : Prop := none ∈ l

/-- Some element of the state is NaN. -/
def Data.poisoned (d : Data) : Prop :=
  Poisoned d.sigma ∨ d.asymp = none ∨ Poisoned d.k1.a ∨ Poisoned d.k1.p ∨ Poisoned d.k1.t ∨
    Poisoned d.k2.a ∨ Poisoned d.k2.p ∨ Poisoned d.k2.t ∨ Poisoned d.k3.a ∨ Poisoned d.k3.p ∨ Poisoned d.k3.t

/-- `M` is the largest of the elements of `l` that are numbers. -/
def Largest (l : List Dbl) (M : ℝ) : Prop := some M ∈ l ∧ ∀ x : ℝ, some x ∈ l → x ≤ M

/-- The arrays of a state have elements. -/
def Data.Allocated (d : Data) : Prop :=
  d.sigma ≠ [] ∧ d.k1.a ≠ [] ∧ d.k1.p ≠ [] ∧ d.k1.t ≠ [] ∧ d.k2.a ≠ [] ∧ d.k2.p ≠ [] ∧ d.k2.t ≠ [] ∧
    d.k3.a ≠ [] ∧ d.k3.p ≠ [] ∧ d.k3.t ≠ []

end Verif.Nan
