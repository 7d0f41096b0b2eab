import Verif.Outcome
import Mathlib.Algebra.Field.Basic
import Mathlib.Algebra.Order.Field.Rat
import Mathlib.Analysis.Complex.Norm
import Mathlib.Analysis.SpecialFunctions.Pow.Real

/-
Model of arithmetic with vertices, self-energies and states:
/repo/source/correlation_functions/state.hpp, four_point/vertex.hpp, four_point/r_vertex.hpp,
two_point/selfenergy.hpp, n_point/data_buffer.hpp.
Double precision numbers are elements of a field; arrays are lists of their elements in storage order.
-/
namespace Verif.State

/-! ### Buffers -/

/-- `dataBuffer`: all frequencies of the first and (for two or more frequency arguments) the second grid,
and the elements. `twoDim` is `numberFrequencyDims > 1`. -/
structure Buf (V : Type) where
  prim : List ℚ
  sec : List ℚ
  twoDim : Bool
  data : List V

/-- `(a - b).max_norm() > 1e-10`, data_buffer.hpp:653-660; subtracting vectors of different size fails an
assertion. -/
def gridsDiffer (a b : List ℚ) : Res Bool :=
  if a.length ≠ b.length then .error .assertion
  else .ok ((List.zipWith (fun x y => |x - y|) a b).any (fun d => decide (d > 1 / 10^10)))

/-- `dataBuffer::check_if_frequencyGrid_identical`, data_buffer.hpp:651-663. -/
def checkGrid {V : Type} (x y : Buf V) : Res Unit := do
  if ← gridsDiffer x.prim y.prim then throw .exception
  if x.twoDim then
    if ← gridsDiffer x.sec y.sec then throw .exception

/-- Element-wise operation of two arrays, multiarray.hpp:396-426 (asserts equal lengths). -/
def arrBin {V : Type} (f : V → V → V) (x y : List V) : Res (List V) :=
  if x.length = y.length then .ok (List.zipWith f x y) else .error .assertion

/-- `+=`, `-=`, `*=`, `/=` of two buffers, data_buffer.hpp:665-668. -/
def bufBin {V : Type} (f : V → V → V) (x y : Buf V) : Res (Buf V) := do
  checkGrid x y
  let d ← arrBin f x.data y.data
  return ⟨x.prim, x.sec, x.twoDim, d⟩

/-- `+=`, `*=` of a buffer with a number, data_buffer.hpp:691-694. -/
def bufUn {V : Type} (f : V → V) (x : Buf V) : Buf V := ⟨x.prim, x.sec, x.twoDim, x.data.map f⟩

/-! ### Channels -/

/-- Build options `MAX_DIAG_CLASS`, `DEBUG_SYMMETRIES`. -/
structure Conf where
  maxDiag : Nat
  debugSymm : Bool

/-- `rvert`, the stored classes. -/
structure RV (V : Type) where
  k1 : Buf V
  k2 : Buf V
  k2b : Buf V
  k3 : Buf V

/-- The operation applied to a buffer if the class is kept. -/
def bufIf {V : Type} (c : Prop) [Decidable c] (f : V → V → V) (x y : Buf V) : Res (Buf V) :=
  if c then bufBin f x y else .ok x

/-- `rvert::apply_binary_op_to_all_vertexBuffers`, r_vertex.hpp:111-122, used by all operators of two
channels. -/
def rvBin {V : Type} (cf : Conf) (f : V → V → V) (x y : RV V) : Res (RV V) := do
  let k1 ← bufIf (cf.maxDiag > 0) f x.k1 y.k1
  let k2 ← bufIf (cf.maxDiag > 1) f x.k2 y.k2
  let k2b ← bufIf (cf.debugSymm ∧ cf.maxDiag > 1) f x.k2b y.k2b
  let k3 ← bufIf (cf.maxDiag > 2) f x.k3 y.k3
  return ⟨k1, k2, k2b, k3⟩

/-- `rvert::apply_unary_op_to_all_vertexBuffers`, r_vertex.hpp:74-84, with an operation that takes its
argument by reference. -/
def rvUn {V : Type} (cf : Conf) (f : V → V) (x : RV V) : RV V :=
  ⟨if cf.maxDiag > 0 then bufUn f x.k1 else x.k1,
   if cf.maxDiag > 1 then bufUn f x.k2 else x.k2,
   if cf.debugSymm ∧ cf.maxDiag > 1 then bufUn f x.k2b else x.k2b,
   if cf.maxDiag > 2 then bufUn f x.k3 else x.k3⟩

/-- The same traversal with an operation that takes its argument by value (as in state.hpp:138-140): the
copies are changed and dropped. -/
def rvUnByValue {V : Type} (_cf : Conf) (_f : V → V) (x : RV V) : RV V := x

/-! ### Vertices -/

/-- `fullvert`: elements of `irred.bare` and the three channels. -/
structure Vert (V : Type) where
  irred : List V
  a : RV V
  p : RV V
  t : RV V

/-- `fullvert::operator+=`, vertex.hpp:359-365 (and `-=`, `*=` of two vertices, which visit the channels in
the order p, t, a; the order only decides which failure is reported first). -/
def vertBin {V : Type} (cf : Conf) (f : V → V → V) (x y : Vert V) : Res (Vert V) := do
  let i ← arrBin f x.irred y.irred
  let a ← rvBin cf f x.a y.a
  let p ← rvBin cf f x.p y.p
  let t ← rvBin cf f x.t y.t
  return ⟨i, a, p, t⟩

/-- `fullvert::operator/=`, vertex.hpp:416-422: `irreducible::operator/=` (vertex.hpp:96-99) has no effect. -/
def vertDiv {V : Type} [Div V] (cf : Conf) (x y : Vert V) : Res (Vert V) := do
  let a ← rvBin cf (· / ·) x.a y.a
  let p ← rvBin cf (· / ·) x.p y.p
  let t ← rvBin cf (· / ·) x.t y.t
  return ⟨x.irred, a, p, t⟩

/-- `fullvert::operator+=(double)`, `*=(double)`, vertex.hpp:370-376, 392-398. -/
def vertUn {V : Type} (cf : Conf) (f : V → V) (x : Vert V) : Vert V :=
  ⟨x.irred.map f, rvUn cf f x.a, rvUn cf f x.p, rvUn cf f x.t⟩

/-- `GeneralVertex`: for non-symmetric vertices the second half is stored as well. -/
structure GVert (V : Type) where
  nonSym : Bool
  half1 : Vert V
  half2 : Vert V

/-- `GeneralVertex::operator+=`, `-=`, vertex.hpp:1117-1121, 1153-1157. -/
def gBin {V : Type} (cf : Conf) (f : V → V → V) (x y : GVert V) : Res (GVert V) := do
  let h1 ← vertBin cf f x.half1 y.half1
  let h2 ← if x.nonSym then vertBin cf f x.half2 y.half2 else pure x.half2
  return ⟨x.nonSym, h1, h2⟩

/-- `GeneralVertex::operator*=(double)`, vertex.hpp:1144-1148: the second half is handled by `+=`. -/
def gScale {V : Type} [Mul V] [Add V] (cf : Conf) (α : V) (x : GVert V) : GVert V :=
  ⟨x.nonSym, vertUn cf (· * α) x.half1, if x.nonSym then vertUn cf (· + α) x.half2 else x.half2⟩

/-! ### Self-energy and state -/

/-- `SelfEnergy`. -/
structure SE (V : Type) where
  sigma : Buf V
  asymp : V

/-- `SelfEnergy::operator+=`, `-=`, `/=`, selfenergy.hpp:83-87, 124-128, 134-138. -/
def seBin {V : Type} (f : V → V → V) (x y : SE V) : Res (SE V) := do
  let s ← bufBin f x.sigma y.sigma
  return ⟨s, f x.asymp y.asymp⟩

/-- `SelfEnergy::operator*=(alpha)`, selfenergy.hpp:107-112. -/
def seScale {V : Type} [Mul V] (α : V) (x : SE V) : SE V := ⟨bufUn (· * α) x.sigma, x.asymp * α⟩

/-- `SelfEnergy::operator+=(alpha)`, selfenergy.hpp:92-96: the asymptotic value is not changed. -/
def seShift {V : Type} [Add V] (α : V) (x : SE V) : SE V := ⟨bufUn (· + α) x.sigma, x.asymp⟩

/-- `State`: its vertex is a symmetric `GeneralVertex`, of which only the first half is stored. -/
structure St (V : Type) where
  vertex : Vert V
  se : SE V

/-- `State::operator+=`, `-=`, state.hpp:76-80, 111-115. -/
def stBin {V : Type} (cf : Conf) (f : V → V → V) (x y : St V) : Res (St V) := do
  let v ← vertBin cf f x.vertex y.vertex
  let s ← seBin f x.se y.se
  return ⟨v, s⟩

/-- `State::operator/=`, state.hpp:121-125. -/
def stDiv {V : Type} [Div V] (cf : Conf) (x y : St V) : Res (St V) := do
  let v ← vertDiv cf x.vertex y.vertex
  let s ← seBin (· / ·) x.se y.se
  return ⟨v, s⟩

/-- `State::operator*=(double)`, state.hpp:98-102. -/
def stScale {V : Type} [Mul V] (cf : Conf) (α : V) (x : St V) : St V :=
  ⟨vertUn cf (· * α) x.vertex, seScale α x.se⟩

/-- `State::operator+=(double)`, state.hpp:85-89. -/
def stShift {V : Type} [Add V] (cf : Conf) (α : V) (x : St V) : St V :=
  ⟨vertUn cf (· + α) x.vertex, seShift α x.se⟩

/-- `State::abs`, state.hpp:135-142. -/
def stAbs {V : Type} (cf : Conf) (abs : V → V) (x : St V) : St V :=
  ⟨⟨x.vertex.irred, rvUnByValue cf abs x.vertex.a, rvUnByValue cf abs x.vertex.p,
    rvUnByValue cf abs x.vertex.t⟩, ⟨bufUn abs x.se.sigma, x.se.asymp⟩⟩

/-! ### Norms -/

/-- `max_norm`, multiarray.hpp:530-532: largest modulus. -/
noncomputable def maxNorm (l : List ℂ) : ℝ := l.foldl (fun m z => max m ‖z‖) 0

/-- `if (compare > max) max = compare;`. -/
noncomputable def takeLarger (m c : ℝ) : ℝ := if c > m then c else m

/-- `fullvert::norm_K1`, `norm_K2`, `norm_K3`, vertex.hpp:1821-1877, for the elements of one class in the
three channels; adding arrays of different size fails an assertion of Eigen. `pow(p)` of a complex array is
the element-wise power. -/
noncomputable def classNorm (p : Nat) (a pp t : List ℂ) : Res ℝ :=
  if p = 0 then .ok (takeLarger (takeLarger (maxNorm a) (maxNorm pp)) (maxNorm t))
  else if a.length = pp.length ∧ pp.length = t.length then
    .ok (‖(List.zipWith (· + ·) (List.zipWith (· + ·) (a.map (· ^ p)) (pp.map (· ^ p)))
      (t.map (· ^ p))).sum‖ ^ (1 / (p : ℝ)))
  else .error .assertion

/-- `SelfEnergy::norm(p)`, selfenergy.hpp:350-360. -/
noncomputable def seNorm (p : Nat) (sigma : List ℂ) (asymp : ℂ) : ℝ :=
  if p = 0 then max (maxNorm sigma) ‖asymp‖
  else ((sigma.map (fun z => ‖z‖ ^ p)).sum + ‖asymp‖ ^ p) ^ (1 / (p : ℝ))

/-- `fullvert::sum_norm`, vertex.hpp:1878-1884: `k2b` and the bare part do not enter. -/
noncomputable def sumNorm (cf : Conf) (p : Nat) (x : Vert ℂ) : Res ℝ := do
  let n1 ← classNorm p x.a.k1.data x.p.k1.data x.t.k1.data
  let n2 ← if cf.maxDiag ≥ 2 then classNorm p x.a.k2.data x.p.k2.data x.t.k2.data else pure 0
  let n3 ← if cf.maxDiag ≥ 3 then classNorm p x.a.k3.data x.p.k3.data x.t.k3.data else pure 0
  return n1 + n2 + n3

/-- `State::norm`, state.hpp:202-208. -/
noncomputable def stNorm (cf : Conf) (x : St ℂ) : Res ℝ := do
  let v ← sumNorm cf 0 x.vertex
  return max (seNorm 0 x.se.sigma.data x.se.asymp) v

/-! ### Comparisons of doubles that may be NaN -/

/-- `a < b` for doubles, `none` being NaN. -/
def ltNaN : Option ℚ → Option ℚ → Bool
  | some a, some b => a < b
  | _, _ => false

/-- Sum of two doubles. -/
def addNaN : Option ℚ → Option ℚ → Option ℚ
  | some a, some b => some (a + b)
  | _, _ => none

/-- `std::max(a, b)`, which returns `(a < b) ? b : a`. -/
def stdMax (a b : Option ℚ) : Option ℚ := if ltNaN a b then b else a

/-- The max-norm branch of `norm_K1` … `norm_K3` given the maximum norms of the three channels. -/
def classNormNaN (a p t : Option ℚ) : Option ℚ :=
  let m := if ltNaN a p then p else a
  if ltNaN m t then t else m

/-- `State::norm` given the maximum norms of all parts (for `MAX_DIAG_CLASS == 3`). -/
def stNormNaN (sigma asymp : Option ℚ) (k1 k2 k3 : Option ℚ × Option ℚ × Option ℚ) : Option ℚ :=
  stdMax (stdMax sigma asymp)
    (addNaN (addNaN (classNormNaN k1.1 k1.2.1 k1.2.2) (classNormNaN k2.1 k2.2.1 k2.2.2))
      (classNormNaN k3.1 k3.2.1 k3.2.2))

end Verif.State
