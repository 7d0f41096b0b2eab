import Verif.Record.Model
import Verif.MfRG.Spec

/-
What the directory of intermediate results should contain, in terms of the recursion for the loop orders
(MfRG.Spec) only.
-/
namespace Verif.Record

open MfRG

variable {V S : Type} [AddCommGroup V]

/-- A file with one state in its first layer and fill values in the others. -/
def single (layers : ℕ) (x : V × S) : File V S := ⟨layers, fun k => if k = 0 then some x else none⟩

/-- Left and right part of loop order `i` as they enter the central part of order `i + 1`. -/
def halves (D : Diagrams V S) (σ : S) (i : ℕ) : V × V := (orders D.eqs σ (i - 1)).2

/-- What self-energy iteration number `k`, begun with the self-energy derivative `σ` and ending at loop order `n`,
should leave behind: the one-loop derivative; for every order from two on the left and the right part; for every
order from three on both forms of the central part; all of them with the self-energy derivative of this iteration;
and if there were three orders the correction. -/
def expected (D : Diagrams V S) (σ : S) (n k : ℕ) (corr : V × S) : Name → Option (V × S)
  | .one rk se => if rk = 0 ∧ se = k then some (contribution D.eqs σ 1, σ) else none
  | .left rk se i => if (rk = 0 ∧ se = k) ∧ 2 ≤ i ∧ i ≤ n then
      some (D.base.left (contribution D.eqs σ (i - 1)), σ) else none
  | .right rk se i => if (rk = 0 ∧ se = k) ∧ 2 ≤ i ∧ i ≤ n then
      some (D.base.right (contribution D.eqs σ (i - 1)), σ) else none
  | .centralL rk se i => if (rk = 0 ∧ se = k) ∧ 3 ≤ i ∧ i ≤ n then
      some (D.cl (halves D σ (i - 1)).1 (halves D σ (i - 1)).2, σ) else none
  | .centralR rk se i => if (rk = 0 ∧ se = k) ∧ 3 ≤ i ∧ i ≤ n then
      some (D.cr (halves D σ (i - 1)).1 (halves D σ (i - 1)).2, σ) else none
  | .correction rk se => if (rk = 0 ∧ se = k) ∧ 3 ≤ n then some corr else none

/-- The directory `d` with the files that `f` names replaced. -/
def overlay (layers : ℕ) (f : Name → Option (V × S)) (d : Dir V S) : Dir V S := fun name =>
  match f name with
  | some x => some (single layers x)
  | none => d name

/-- The directory after the iterations `1 … m`, where iteration `k` leaves behind `f k`. -/
def overlays (layers : ℕ) (f : ℕ → Name → Option (V × S)) (d : Dir V S) : ℕ → Dir V S
  | 0 => d
  | m + 1 => overlay layers (f (m + 1)) (overlays layers f d m)

end Verif.Record
