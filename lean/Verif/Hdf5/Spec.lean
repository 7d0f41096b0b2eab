import Verif.Hdf5.Model

/-
Specification of result files, independent of how they are written: a file is a table of layers.
-/
namespace Verif.Hdf5

/-- What a user expects of a file after some calls. -/
structure Table (V : Type) where
  /-- state for which the file was created -/
  created : Snapshot V
  /-- number of layers -/
  n : Int
  /-- state most recently written to a layer since the file was created -/
  layer : Int → Option (Snapshot V)
  /-- layer most recently written -/
  last : Int
  /-- convergence flag given in the most recent write -/
  conv : Bool
  /-- some write since the creation of the file was flagged as converged -/
  anyConv : Bool

/-- Intended effect of a call: creating a file forgets everything and writes layer 0; adding a layer of the
table replaces that layer only; other layers cannot be added. -/
def Table.after {V : Type} (t : Option (Table V)) : Call V → Option (Table V)
  | .create n s c => some ⟨s, n, fun j => if j = 0 then some s else none, 0, c, c⟩
  | .add it s c => t.map fun t =>
      if 0 ≤ it ∧ it < t.n then
        { t with layer := fun j => if j = it then some s else t.layer j, last := it, conv := c
                 anyConv := t.anyConv || c }
      else t

/-- Intended effect of a sequence of calls. -/
def Table.afterAll {V : Type} (h : List (Call V)) : Option (Table V) := h.foldl Table.after none

/-- The state handed to a call. -/
def Call.snapshot {V : Type} : Call V → Snapshot V
  | .create _ s _ => s
  | .add _ s _ => s

/-- Arguments are `int`s, and a state has one value of Lambda. -/
def Call.Sane {V : Type} : Call V → Prop
  | .create n s _ => (s.content .lambdas).length = 1 ∧ -2 ^ 31 ≤ n ∧ n < 2 ^ 31
  | .add it s _ => (s.content .lambdas).length = 1 ∧ -2 ^ 31 ≤ it ∧ it < 2 ^ 31

/-- Everything that reading a layer is to return for a state: its data and the parameters of its grids. -/
def Snapshot.stored {V : Type} (s : Snapshot V) : List (Path × List V) :=
  (readMain ++ paramPaths).map (fun p => (p, s.content p))

/-- Crash consistency: after any sequence of completed calls, and a further call killed at any point, the layer
that the file reports as last can be read and holds a state that was written to it. -/
def CrashConsistent {V : Type} (fill : V) (B : Build) : Prop :=
  ∀ (h : List (Call V)) (c : Call V) (k : Nat) (disk : Option (File V)),
    (∀ c' ∈ h ++ [c], c'.Sane) → history fill B none h = (disk, none) →
    ∀ f, crash fill B disk c k = some f → ∀ b l, checkConvergence (some f) = .ok (b, l) → l ≠ -1 →
      ∃ c' ∈ h ++ [c], readState f l = .ok c'.snapshot.stored

end Verif.Hdf5
