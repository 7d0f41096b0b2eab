import Verif.MultiArray.Model

/-
Free functions on arrays whose result may have another element type, and comparison: multiarray.hpp:678-985.
-/
namespace Verif.MultiArray
open Verif Verif.Index

/-- `elements[i]` of the buffer, checked by Eigen. -/
def MArr.elem (m : MArr α) (i : Nat) : Res α :=
  match m.elems[i]? with
  | some x => .ok x
  | none => .error .assertion

/-- `elementwise` for a result of another type, multiarray.hpp:724-741: a new array of the shape of the left operand is filled by a loop over its
size; arrays of different shape raise `length_error`. -/
def MArr.elementwise (op : α → β → γ) (l : MArr α) (r : MArr β) : Res (MArr γ) :=
  if l.len ≠ r.len then .error .exception
  else do
    let els ← (List.range (flatSize l.len)).mapM fun i => do
      let x ← l.elem i
      let y ← r.elem i
      return op x y
    return { len := l.len, cum := cumulLength l.len, elems := els }

/-- `scalar_map` for a result of another type, multiarray.hpp:755-767. -/
def MArr.scalarMap (op : α → ρ → γ) (l : MArr α) (c : ρ) : Res (MArr γ) := do
  let els ← (List.range (flatSize l.len)).mapM fun i => do
    let x ← l.elem i
    return op x c
  return { len := l.len, cum := cumulLength l.len, elems := els }

/-- `operator-(const R&, const multiarray&)`, multiarray.hpp:847-853: the scalar stands on the left; `+`, `*`, `/` alike
(795-801, 897-903, 945-951). -/
def MArr.scalarLeft (op : ρ → α → γ) (c : ρ) (r : MArr α) : Res (MArr γ) := r.scalarMap (fun l c => op c l) c

/-- `operator==`, multiarray.hpp:678-682: shapes first, then the elements (Eigen's comparison asserts equal sizes). -/
def MArr.equal [DecidableEq α] (l r : MArr α) : Res Bool :=
  if l.len = r.len then
    if l.elems.length = r.elems.length then .ok ((List.zipWith (fun x y => decide (x = y)) l.elems r.elems).all id) else .error .assertion
  else .ok false

/-- Unary minus, multiarray.hpp:976-987: `(-1) * rhs`; the product with a scalar on the left. -/
def MArr.neg (r : MArr α) [Mul α] [Neg α] [One α] : Res (MArr α) := MArr.scalarLeft (fun c x => c * x) (-1 : α) r

/-- An operator between two arrays, multiarray.hpp:803-825 (others alike): if the result has the type of the left operand it is the assignment applied to a
copy, otherwise `elementwise`. -/
def MArr.binarySame (op : α → α → α) (l r : MArr α) : Res (MArr α) := l.zipAssign op r

end Verif.MultiArray
