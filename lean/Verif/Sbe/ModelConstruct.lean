import Verif.SpinSum.Model

/-
Model of the assembly of an expanded vertex from its single-boson-exchange parts,
/repo/source/correlation_functions/four_point/vertex.hpp:464-824 and 1077-1098. One reducible channel; its buffers are
elements of a ring in which multiplication joins two objects along the internal legs (C131). Channels do not influence
one another in this code.
-/
namespace Verif.Sbe

open Keldysh

variable {A : Type} [Ring A]

/-- The expanded buffers of one spin component: bare vertex, K1, K2 and K2b (at first the vertices with a boson on one
side taken off, later the products), K3 and the twice reducible part. -/
structure Part (A : Type) where
  bare : A
  k1 : A
  k2 : A
  k2b : A
  k3 : A
  k3sbe : A

/-- `irred + K1`: what `combine_SBE_to_K2` multiplies with. -/
def Part.w (x : Part A) : A := x.k1 + x.bare

/-- `symmetry_expand_impl`, vertex.hpp:794-824: two computed components and their sum; the bare vertex of the third is
zero. -/
def expandImpl (x y : Part A) (s : Nat) : Part A :=
  if s = 0 then x else if s = 1 then y
  else ⟨0, x.k1 + y.k1, x.k2 + y.k2, x.k2b + y.k2b, x.k3 + y.k3, x.k3sbe⟩

/-- `combine_SBE_to_K2(for_lambda, for_w)`. -/
def comb2 (x y : Part A) : A := x.k2 * y.w

/-- `combine_SBE_to_K2b(for_lambda, for_w)`. -/
def comb2b (x y : Part A) : A := y.w * x.k2b

/-- `combine_SBE_to_K3_SBE(for_K2, for_lambda)`. -/
def comb3 (x y : Part A) : A := x.k2 * y.k2b

/-- The assignments to the three spin components that end each of the functions: the first two if the channel is
handled, the third always as their sum. -/
def assign (active : Bool) (get : Part A → A) (set : Part A → A → Part A) (n0 n1 : A) (v : Nat → Part A) : Nat → Part A :=
  let v0 := if active then set (v 0) n0 else v 0
  let v1 := if active then set (v 1) n1 else v 1
  fun s => if s = 0 then v0 else if s = 1 then v1 else set (v 2) (get v0 + get v1)

/-- Field updates. -/
def setK2 (x : Part A) (a : A) : Part A := { x with k2 := a }
def setK2b (x : Part A) (a : A) : Part A := { x with k2b := a }
def setK3 (x : Part A) (a : A) : Part A := { x with k3sbe := a }

/-- `construct_SBE_nondiff_K2`, vertex.hpp:464-512. -/
def nondiffK2 (ch : Ch) (active : Bool) (v : Nat → Part A) : Nat → Part A :=
  match ch with
  | .a => assign active Part.k2 setK2 (comb2 (v 0) (v 0)) (comb2 (v 1) (v 2) + comb2 (v 2) (v 1)) v
  | .p => assign active Part.k2 setK2 (comb2 (v 0) (v 0)) (comb2 (v 0) (v 1)) v
  | .t => assign active Part.k2 setK2 (comb2 (v 0) (v 2) + comb2 (v 2) (v 0)) (comb2 (v 1) (v 1)) v

/-- `construct_SBE_nondiff_K3_SBE`, vertex.hpp:513-563. -/
def nondiffK3 (ch : Ch) (active : Bool) (v : Nat → Part A) : Nat → Part A :=
  match ch with
  | .a => assign active Part.k3sbe setK3 (comb3 (v 0) (v 0)) (comb3 (v 1) (v 2) + comb3 (v 2) (v 1)) v
  | .p => assign active Part.k3sbe setK3 (comb3 (v 0) (v 0)) (comb3 (v 1) (v 0)) v
  | .t => assign active Part.k3sbe setK3 (comb3 (v 0) (v 2) + comb3 (v 2) (v 0)) (comb3 (v 1) (v 1)) v

/-- `construct_SBE_nondiff_K2b`, vertex.hpp:564-615. -/
def nondiffK2b (ch : Ch) (active : Bool) (v : Nat → Part A) : Nat → Part A :=
  match ch with
  | .a => assign active Part.k2b setK2b (comb2b (v 0) (v 0)) (comb2b (v 1) (v 2) + comb2b (v 2) (v 1)) v
  | .p => assign active Part.k2b setK2b (comb2b (v 0) (v 0)) (comb2b (v 0) (v 1)) v
  | .t => assign active Part.k2b setK2b (comb2b (v 0) (v 2) + comb2b (v 2) (v 0)) (comb2b (v 1) (v 1)) v

/-- `construct_SBE_diff_K2`, vertex.hpp:617-673: `v` differentiated, `u` not. -/
def diffK2 (ch : Ch) (active : Bool) (v u : Nat → Part A) : Nat → Part A :=
  match ch with
  | .a => assign active Part.k2 setK2 (comb2 (v 0) (u 0) + comb2 (u 0) (v 0))
      (comb2 (v 1) (u 2) + comb2 (v 2) (u 1) + comb2 (u 1) (v 2) + comb2 (u 2) (v 1)) v
  | .p => assign active Part.k2 setK2 (comb2 (v 0) (u 0) + comb2 (u 0) (v 0)) (comb2 (v 0) (u 1) + comb2 (u 0) (v 1)) v
  | .t => assign active Part.k2 setK2 (comb2 (v 0) (u 2) + comb2 (v 2) (u 0) + comb2 (u 0) (v 2) + comb2 (u 2) (v 0))
      (comb2 (v 1) (u 1) + comb2 (u 1) (v 1)) v

/-- `construct_SBE_diff_K3_SBE`, vertex.hpp:674-732. -/
def diffK3 (ch : Ch) (active : Bool) (v u : Nat → Part A) : Nat → Part A :=
  match ch with
  | .a => assign active Part.k3sbe setK3 (comb3 (v 0) (u 0) + comb3 (u 0) (v 0))
      (comb3 (v 1) (u 2) + comb3 (v 2) (u 1) + comb3 (u 1) (v 2) + comb3 (u 2) (v 1)) v
  | .p => assign active Part.k3sbe setK3 (comb3 (v 0) (u 0) + comb3 (u 0) (v 0)) (comb3 (v 1) (u 0) + comb3 (u 1) (v 0)) v
  | .t => assign active Part.k3sbe setK3 (comb3 (v 0) (u 2) + comb3 (v 2) (u 0) + comb3 (u 0) (v 2) + comb3 (u 2) (v 0))
      (comb3 (v 1) (u 1) + comb3 (u 1) (v 1)) v

/-- `construct_SBE_diff_K2b`, vertex.hpp:733-792. -/
def diffK2b (ch : Ch) (active : Bool) (v u : Nat → Part A) : Nat → Part A :=
  match ch with
  | .a => assign active Part.k2b setK2b (comb2b (v 0) (u 0) + comb2b (u 0) (v 0))
      (comb2b (v 1) (u 2) + comb2b (v 2) (u 1) + comb2b (u 1) (v 2) + comb2b (u 2) (v 1)) v
  | .p => assign active Part.k2b setK2b (comb2b (v 0) (u 0) + comb2b (u 0) (v 0)) (comb2b (v 0) (u 1) + comb2b (u 0) (v 1)) v
  | .t => assign active Part.k2b setK2b (comb2b (v 0) (u 2) + comb2b (v 2) (u 0) + comb2b (u 0) (v 2) + comb2b (u 2) (v 0))
      (comb2b (v 1) (u 1) + comb2b (u 1) (v 1)) v

/-- A channel is handled unless it is the one of the bubble and the full vertex is not needed. -/
def active (bubble ch : Ch) (needFull : Bool) : Bool := bubble ≠ ch ∨ needFull

/-- `symmetry_expand<channel_bubble, is_left_vertex, need_full_vertex>`, vertex.hpp:1077-1098, for a vertex that is not
differentiated; before the components marked as vanishing are set to zero. -/
def expand (bubble ch : Ch) (needFull : Bool) (x y : Part A) : Nat → Part A :=
  let on := active bubble ch needFull
  nondiffK2b ch on (nondiffK3 ch on (nondiffK2 ch on (expandImpl x y)))

/-- The same for a differentiated vertex with components `x, y`; `x', y'` are those of the vertex itself. -/
def expandDiff (bubble ch : Ch) (needFull : Bool) (x y x' y' : Part A) : Nat → Part A :=
  let on := active bubble ch needFull
  let v := expandImpl x y
  let u := expandImpl x' y'
  let v := diffK2 ch on v u
  let u := nondiffK2 ch on u
  let v := diffK3 ch on v u
  let u := nondiffK3 ch on u
  diffK2b ch on v u

end Verif.Sbe
