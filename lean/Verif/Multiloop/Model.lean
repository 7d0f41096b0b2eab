import Verif.MfRG.Model
import Verif.Keldysh.Model
import Mathlib.Analysis.Normed.Operator.Bilinear

/-
The diagrams of the multiloop flow: `selfEnergyOneLoopFlow`, `vertexOneLoopFlow`, `calculate_dGammaL`,
`calculate_dGammaR`, `calculate_dGammaC_right_insertion`, `calculate_dGammaC_left_insertion`,
`selfEnergyFlowCorrections`, /repo/source/mfRG_flow/right_hand_sides.hpp:588-856, and the averaging of the two central
parts, right_hand_sides.hpp:381-394.  Together with the driver modelled in Verif.MfRG they make up the right-hand side
of the flow.

Bubbles (`bubble_function`) and loops are functions that are linear in each vertex and in the propagator; that their
numerical evaluation sums over the inner legs and integrates is the subject of other topics (C31–C38, C92–C97,
C131).  A vertex is an element of a normed space of four-point functions; on grids the space is finite-dimensional.
Modelled for `SBE_DECOMPOSITION == 0` (the default), `DEBUG_SYMMETRIES == 1` (no reordering of the halves) and
`KATANIN` defined (the default); neither `STATIC_FEEDBACK`, `BARE_SE_FEEDBACK` nor `PT2_FLOW`.
-/
namespace Verif.Multiloop

open Keldysh (Ch)

noncomputable section

/-- Everything that is fixed during one evaluation of the right-hand side. -/
structure Known (V P S : Type) [NormedAddCommGroup V] [NormedSpace ℝ V] [NormedAddCommGroup P] [NormedSpace ℝ P]
    [NormedAddCommGroup S] [NormedSpace ℝ S] where
  /-- `Psi.vertex.irred()`: the part not reducible in any channel -/
  bare : V
  /-- `Psi.vertex.get_rvertex(r)` -/
  red : Ch → V
  /-- `bubble_function(·, left, right, Pi, r)` -/
  pi : Ch → V →L[ℝ] V →L[ℝ] V
  /-- `bubble_function(·, left, right, dPi, r)` for the differentiated propagator `dG`, right_hand_sides.hpp:238 -/
  dpi : P → Ch → V →L[ℝ] V →L[ℝ] V
  /-- `loop<true,0>` -/
  loop : V →L[ℝ] P →L[ℝ] S
  /-- the propagator extended by a self-energy, type `'e'`: `G dSigma G` -/
  ext : S →L[ℝ] P
  /-- the propagator `G` -/
  G : P
  /-- the single-scale propagator `S` -/
  single : P
  /-- the K2 component of a four-point function that is reducible in some channel -/
  k2 : V →L[ℝ] V
  /-- the K2b component -/
  k2b : V →L[ℝ] V

variable {V P S : Type} [NormedAddCommGroup V] [NormedSpace ℝ V] [NormedAddCommGroup P] [NormedSpace ℝ P]
  [NormedAddCommGroup S] [NormedSpace ℝ S]

/-- The parts of a vertex that are reducible in the other two channels: what a vertex of type `symmetric_r_irred`
returns inside a bubble of channel `r`, vertex.hpp:906-978 (for a differentiated vertex there is no bare part). -/
def others (r : Ch) (T : Ch → V) : V := match r with
  | .a => T .p + T .t
  | .p => T .a + T .t
  | .t => T .a + T .p

/-- The sum over the three channels. -/
def total (T : Ch → V) : V := T .a + T .p + T .t

namespace Known

variable (k : Known V P S)

/-- The value of the full vertex `Psi.vertex`. -/
def full : V := k.bare + total k.red

/-- `selfEnergyOneLoopFlow(dPsi.selfenergy, Psi.vertex, S)`, right_hand_sides.hpp:588-592, called in line 208. -/
def oneSE : S := k.loop k.full k.single

/-- `Propagator dG (Lambda, Psi.selfenergy, dPsi.selfenergy, 'k')`, right_hand_sides.hpp:226: single-scale propagator
plus extension. -/
def katanin (σ : S) : P := k.single + k.ext σ

/-- `vertexOneLoopFlow`, right_hand_sides.hpp:604-635, without the decomposition: channel `r` is overwritten with the
bubble in channel `r`. -/
def one (σ : S) : Ch → V := fun r => k.dpi (k.katanin σ) r k.full k.full

/-- `calculate_dGammaL`, right_hand_sides.hpp:644-663. -/
def left (T : Ch → V) : Ch → V := fun r => k.pi r (others r T) k.full

/-- `calculate_dGammaR`, right_hand_sides.hpp:670-688. -/
def right (T : Ch → V) : Ch → V := fun r => k.pi r k.full (others r T)

/-- `calculate_dGammaC_right_insertion`, right_hand_sides.hpp:774-797: inside a bubble of channel `r` a vertex of type
`non_symmetric_diffleft` returns its part reducible in `r`. -/
def centralRight (L : Ch → V) : Ch → V := fun r => k.pi r k.full (L r)

/-- `calculate_dGammaC_left_insertion`, right_hand_sides.hpp:804-827. -/
def centralLeft (R : Ch → V) : Ch → V := fun r => k.pi r (R r) k.full

/-- The central part, right_hand_sides.hpp:381-394: K2 of the left insertion is overwritten with K2 of the right
insertion, then K2b of the right insertion with K2b of the left insertion, and the mean is taken. -/
def central (L R : Ch → V) : Ch → V := fun r =>
  let cr := k.centralRight L r
  let cl := k.centralLeft R r
  let cl' := cl - k.k2 cl + k.k2 cr
  let cr' := cr - k.k2b cr + k.k2b cl'
  (0.5 : ℝ) • (cr' + cl')

/-- `selfEnergyFlowCorrections`, right_hand_sides.hpp:839-856: the vertex handed in is of type `symmetric_r_irred` and is
evaluated in channel `t`. -/
def corr (C : Ch → V) : S :=
  let tbar := k.loop (others .t C) k.G
  let t := k.loop k.full (k.ext tbar)
  tbar + t

/-- The right-hand side with these diagrams: the driver is `MfRG.rhs`; acceleration and norms are those of `E`. -/
def eqs (E : MfRG.Eqs (Ch → V) S) : MfRG.Eqs (Ch → V) S :=
  { E with oneSE := k.oneSE, one := k.one, left := k.left, right := k.right, central := k.central, reorder := id,
           corr := k.corr }

end Known

end

end Verif.Multiloop
