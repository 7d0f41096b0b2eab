import Verif.Multiloop.Spec
import Verif.Parquet.Model

/-
The Bethe–Salpeter step of the parquet iteration: `compute_BSE`,
/repo/source/perturbation_theory_and_parquet/parquet_solver.hpp:27-87, and the vertex part of `parquet_iteration`, lines
475-487.  As in Verif.Multiloop, vertices are elements of a normed space and `bubble_function` is bilinear; the bubbles
depend on the self-energy through the propagator, which is fixed during one step.
-/
namespace Verif.Bse

open Keldysh (Ch)
open Multiloop (others total)

noncomputable section

variable {V : Type} [NormedAddCommGroup V] [NormedSpace ℝ V]

/-- The channel a character stands for in `bubble_function`, /repo/source/bubble/bubble_function.hpp:967-983. -/
def channelOf : Char → Option Ch
  | 'a' => some .a
  | 'p' => some .p
  | 't' => some .t
  | _ => none

/-- `bubble_function(dgamma, left, right, …, c, …)`: the entries of the channel are overwritten
(bubble_function.hpp:560-597); for any other character nothing happens (line 983 is commented out). -/
def bubbleInto (f : Ch → V) (T : Ch → V) (c : Char) : Ch → V :=
  match channelOf c with
  | none => T
  | some r => fun r' => if r' = r then f r else T r'

/-- `for (char r : "apt") bubble_function(…)`: the string literal has four characters, the last one is the
terminating zero; parquet_solver.hpp:37 and 42. -/
def overChannels (f : Ch → V) (T : Ch → V) : Ch → V := ['a', 'p', 't', '\x00'].foldl (bubbleInto f) T

/-- The data of one step: fully irreducible vertex, bubbles, and the K2 and K2b components of a reducible part. -/
structure Step (V : Type) [NormedAddCommGroup V] [NormedSpace ℝ V] where
  bare : V
  pi : Ch → V →L[ℝ] V →L[ℝ] V
  k2 : V →L[ℝ] V
  k2b : V →L[ℝ] V

/-- What `compute_BSE` produces. -/
structure Result (V : Type) where
  mean : Ch → V
  left : Ch → V
  right : Ch → V

/-- `compute_BSE`, parquet_solver.hpp:27-60; `sbe` is `SBE_DECOMPOSITION`, with `DEBUG_SYMMETRIES`; `L0`, `R0` are the
contents of the two vertices before the call. -/
def computeBSE (s : Step V) (sbe : Bool) (L0 R0 red : Ch → V) : Result V :=
  let full := s.bare + total red
  let L := overChannels (fun r => s.pi r (s.bare + others r red) full) L0
  let R := overChannels (fun r => s.pi r full (s.bare + others r red)) R0
  let L' := if sbe then fun r => L r - s.k2 (L r) + s.k2 (R r) else L
  let R' := if sbe then fun r => R r - s.k2b (R r) + s.k2b (L' r) else R
  { mean := fun r => (0.5 : ℝ) • (L' r + R' r), left := L', right := R' }

/-- The reducible parts after `parquet_iteration`, parquet_solver.hpp:478-489: `compute_BSE` with two new vertices
(lines 72-74); `initialize` sets the fully irreducible part to the same value in every iteration. -/
def iterate (s : Step V) (sbe : Bool) (red : Ch → V) : Ch → V := (computeBSE s sbe 0 0 red).mean

end

end Verif.Bse
