import Verif.State.Model

/-
The components of a state, listed independently of the arithmetic.
-/
namespace Verif.State

variable {V : Type}

/-- The buffers of a channel that the build keeps. -/
def RV.kept (cf : Conf) (x : RV V) : List (Buf V) :=
  (if 1 ≤ cf.maxDiag then [x.k1] else []) ++ (if 2 ≤ cf.maxDiag then [x.k2] else [])
    ++ (if cf.debugSymm ∧ 2 ≤ cf.maxDiag then [x.k2b] else []) ++ (if 3 ≤ cf.maxDiag then [x.k3] else [])

/-- All buffers of a vertex. -/
def Vert.buffers (cf : Conf) (x : Vert V) : List (Buf V) := x.a.kept cf ++ x.p.kept cf ++ x.t.kept cf

/-- All numbers of a vertex: bare interaction and every kept class in every channel. -/
def Vert.numbers (cf : Conf) (x : Vert V) : List (List V) := x.irred :: (x.buffers cf).map Buf.data

/-- All numbers of a state: those of the vertex, the self-energy and its asymptotic value. -/
def St.numbers (cf : Conf) (x : St V) : List (List V) :=
  x.vertex.numbers cf ++ [x.se.sigma.data, [x.se.asymp]]

/-- All buffers of a state. -/
def St.buffers (cf : Conf) (x : St V) : List (Buf V) := x.vertex.buffers cf ++ [x.se.sigma]

/-- Two buffers on the same frequency grid and of the same size. -/
def SameGrid (x y : Buf V) : Prop :=
  x.prim = y.prim ∧ x.sec = y.sec ∧ x.data.length = y.data.length

/-- Two vertices that may be combined. -/
def Vert.Compatible (cf : Conf) (x y : Vert V) : Prop :=
  x.irred.length = y.irred.length ∧ List.Forall₂ SameGrid (x.buffers cf) (y.buffers cf)

/-- Two states that may be combined. -/
def St.Compatible (cf : Conf) (x y : St V) : Prop :=
  x.vertex.irred.length = y.vertex.irred.length ∧ List.Forall₂ SameGrid (x.buffers cf) (y.buffers cf)

end Verif.State
