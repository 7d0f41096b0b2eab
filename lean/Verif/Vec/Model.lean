import Verif.Util.Loops
import Mathlib.Data.Complex.Basic

/-
Model of the vector class `vec<T>` of /repo/source/data_structures.hpp:116-441 as lists.
-/
namespace Verif.Vec
open Verif

/-- `elementwise_map_assign`, data_structures.hpp:158-171 (operators `+=`, `-=`, `*=`, `/=` with a vector):
in-place loop `(*this)[i] = op((*this)[i], rhs[i])`; throws for different sizes. -/
def elementwiseAssign (op : α → β → α) (self : List α) (rhs : List β) : Res (List α) :=
  if rhs.length ≠ self.length then .error .exception else
  runLoop (fun i x => match rhs[i]? with
    | none => .error .undefined
    | some y => .ok (op x y)) (List.range self.length) self

/-- The same with `rhs` being the vector itself (`x += x`): both operands are read from the current
contents. -/
def elementwiseAssignSelf (op : α → α → α) (self : List α) : Res (List α) :=
  runLoop (fun _ x => .ok (op x x)) (List.range self.length) self

/-- `scalar_map_assign`, data_structures.hpp:174-183. -/
def scalarAssign (op : α → β → α) (self : List α) (c : β) : Res (List α) :=
  runLoop (fun _ x => .ok (op x c)) (List.range self.length) self

/-- `elementwise`, data_structures.hpp:200-213: a fresh vector, initialised with `zero`, is filled. -/
def elementwise (zero : γ) (op : α → β → γ) (lhs : List α) (rhs : List β) : Res (List γ) :=
  if lhs.length ≠ rhs.length then .error .exception else
  runLoop (fun i _ => match lhs[i]?, rhs[i]? with
    | some x, some y => .ok (op x y)
    | _, _ => .error .undefined) (List.range lhs.length) (List.replicate lhs.length zero)

/-- `scalar_map`, data_structures.hpp:188-197. -/
def scalarMap (zero : γ) (op : α → β → γ) (lhs : List α) (c : β) : Res (List γ) :=
  runLoop (fun i _ => match lhs[i]? with
    | some x => .ok (op x c)
    | none => .error .undefined) (List.range lhs.length) (List.replicate lhs.length zero)

/-- Constant minus vector, data_structures.hpp:319-322: the lambda swaps the operands back. -/
def constMinus [Zero α] [Sub α] (c : α) (rhs : List α) : Res (List α) :=
  scalarMap 0 (fun r l => l - r) rhs c

/-- `transform_vec`, data_structures.hpp:216-224 (`inv`, `real`, `imag`, `conj`). -/
def transformVec (zero : β) (op : α → β) (v : List α) : Res (List β) :=
  runLoop (fun i _ => match v[i]? with
    | some x => .ok (op x)
    | none => .error .undefined) (List.range v.length) (List.replicate v.length zero)

/-- `abs()`, data_structures.hpp:359-368: a parallel loop; `order` is the order in which the iterations are
performed by the threads. -/
def absPar (zero : β) (absf : α → β) (order : List Nat) (v : List α) : Res (List β) :=
  runLoop (fun i _ => match v[i]? with
    | some x => .ok (absf x)
    | none => .error .undefined) order (List.replicate v.length zero)

/-- `operator+= (vec&, double)`, data_structures.hpp:407-413: parallel in-place loop. -/
def addConstPar [Add α] (order : List Nat) (v : List α) (c : α) : Res (List α) :=
  runLoop (fun _ x => .ok (x + c)) order v

/-- `operator()(i1,i2)`, data_structures.hpp:290-296: iterator `begin()+i` or `end()+i` for negative `i`, and
one past the second.  Iterators outside `[begin, end]` and reversed ranges are undefined. -/
def subvec (v : List α) (i1 i2 : Int) : Res (List α) :=
  let n : Int := v.length
  let a := (if 0 ≤ i1 then 0 else n) + i1
  let b := (if 0 ≤ i2 then 0 else n) + i2 + 1
  if 0 ≤ a ∧ a ≤ b ∧ b ≤ n then .ok ((v.drop a.toNat).take (b - a).toNat) else .error .undefined

/-- `max_norm`, data_structures.hpp:378-385; `absf` is `std::abs`. -/
def maxNorm (absf : α → ℚ) (v : List α) : ℚ := v.foldl (fun out x => max out (absf x)) 0

/-- `diff`, data_structures.hpp:388-393: `begin()+1` and `end()-1` of an empty vector are undefined. -/
def diff [Zero α] [Sub α] (v : List α) : Res (List α) :=
  if v.isEmpty then .error .undefined else
  elementwise 0 (fun l r => l - r) (v.drop 1) (v.take (v.length - 1))

/-- `sum`, data_structures.hpp:396-399. -/
def sum [Zero α] [Add α] (v : List α) : α := v.foldl (· + ·) 0

/-- `operator*(vec<T>, comp)`, data_structures.hpp:432-441: the result vector is zero-initialised and then
`result[i] *= lhs[i] * rhs`; parallel loop in the order `order`. -/
def mulComp [Mul α] [Zero α] (order : List Nat) (lhs : List α) (rhs : α) : Res (List α) :=
  runLoop (fun i r => match lhs[i]? with
    | some x => .ok (r * (x * rhs))
    | none => .error .undefined) order (List.replicate lhs.length 0)

/-- `myimag<double>`, data_structures.hpp:97-98: returns its argument. -/
def myimagDouble (x : α) : α := x

end Verif.Vec
