import Verif.Outcome
import Mathlib.Algebra.Field.Basic
import Mathlib.Analysis.SpecialFunctions.Complex.Arg
import Mathlib.Analysis.SpecialFunctions.Trigonometric.Inverse
import Mathlib.Data.Rat.Floor

/-
Model of the frequency conversions: /repo/source/utilities/math_utils.{hpp,c++} and `rvert::transfToR`,
/repo/source/correlation_functions/four_point/r_vertex.hpp:1598-1749.
Machine integers are unbounded integers (no overflow); `/` of C++ on integers is `Int.tdiv`, `%` is
`Int.tmod`. Double precision numbers are elements of a field, of ℚ or of ℝ.
-/
namespace Verif.Freqs

/-! ### Matsubara rounding (math_utils.c++:25-126) -/

/-- `integer_division_ceil`, math_utils.c++:25-35. -/
def divCeil (a b : Int) : Res Int :=
  if ¬ b > 0 then .error .assertion
  else if a ≥ 0 then .ok ((a + b - 1).tdiv b) else .ok (-((-a).tdiv b))

/-- `integer_division_floor`, math_utils.c++:37-49, with its assertions. -/
def divFloor (a b : Int) : Res Int :=
  if ¬ b > 0 then .error .assertion
  else if a ≥ 0 then
    let r := a.tdiv b
    if r ≤ a then .ok r else .error .assertion
  else
    let r := -((-a + b - 1).tdiv b)
    if r ≤ 0 then .ok r else .error .assertion

/-- `floor2bfreq(int)`, math_utils.c++:64-70. -/
def floor2b (w : Int) : Res Int := do
  let q ← divFloor w 2
  let r := q * 2
  if ¬ r ≤ w then throw .assertion
  if ¬ r ≥ w - 2 then throw .assertion
  return r

/-- `ceil2bfreq(int)`, math_utils.c++:71-77. -/
def ceil2b (w : Int) : Res Int := do
  let q ← divCeil w 2
  let r := q * 2
  if ¬ r ≥ w then throw .assertion
  if ¬ r ≤ w + 2 then throw .assertion
  return r

/-- `floor2bfreq(double)`, math_utils.c++:79-86. -/
def floor2bD (w : ℚ) : Res ℚ :=
  let r : ℚ := ⌊w / 2 + 1 / 10^8⌋ * 2
  if ¬ r ≤ w then .error .assertion
  else if ¬ r ≥ w - 2 then .error .assertion
  else .ok r

/-- `ceil2bfreq(double)`, math_utils.c++:87-94. -/
def ceil2bD (w : ℚ) : Res ℚ :=
  let r : ℚ := ⌈w / 2 - 1 / 10^8⌉ * 2
  if ¬ r ≥ w then .error .assertion
  else if ¬ r ≤ w + 2 then .error .assertion
  else .ok r

/-- `(int) x`. -/
def truncQ (x : ℚ) : Int := if 0 ≤ x then ⌊x⌋ else ⌈x⌉

/-- `sign`, math_utils.hpp:24. -/
def signQ (x : ℚ) : ℚ := if x > 0 then 1 else if x < 0 then -1 else 0

/-- `round2bfreq`, math_utils.c++:96-100. -/
def round2b (w : ℚ) : Int := 2 * (truncQ (w + 1/10 * signQ w)).tdiv 2

/-- `round2ffreq`, math_utils.c++:101-105. -/
def round2f (w : ℚ) : Int := 2 * (truncQ (w + 1/10 * signQ w) - 1).tdiv 2 + 1

/-- `signFlipCorrection_MF_int`, math_utils.c++:117-126; the cast of `|w/2|` truncates. -/
def signFlipInt (w : ℚ) : Res Int :=
  let c := (-(truncQ |w / 2|)).tmod 2
  if c = 0 ∨ c = -1 then .ok c else .error .assertion

/-- `signFlipCorrection_MF`, math_utils.c++:107-115. -/
def signFlip (w : ℚ) : Res Int := do
  let c ← signFlipInt w
  return c * 2

/-! ### Frequency conventions -/

inductive Ch
  | a | p | t
  deriving DecidableEq, Repr

/-- Frequencies `(w, v1, v2)` of a `VertexInput`. -/
structure Fr (K : Type) where
  w : K
  v1 : K
  v2 : K
  deriving DecidableEq, Repr

/-- `switch2bosonicFreqs<channel>`, math_utils.hpp:833-841, math_utils.c++:146-163. -/
def toBosonic {K : Type} [Field K] (c : Ch) (x : Fr K) : Fr K :=
  match c with
  | .a => ⟨x.w, x.v1 + x.v2, x.v1 - x.v2⟩
  | .p => ⟨-x.v1 - x.v2, x.w, x.v1 - x.v2⟩
  | .t => ⟨x.v1 - x.v2, x.v1 + x.v2, x.w⟩

/-- `switch2naturalFreqs<channel>`, math_utils.hpp:851-859, math_utils.c++:165-182. -/
def toNatural {K : Type} [Field K] (c : Ch) (x : Fr K) : Fr K :=
  match c with
  | .a => ⟨x.w, 1/2 * (x.v1 + x.v2), 1/2 * (x.v1 - x.v2)⟩
  | .p => ⟨x.v1, 1/2 * (-x.w + x.v2), 1/2 * (-x.w - x.v2)⟩
  | .t => ⟨x.v2, 1/2 * (x.w + x.v1), 1/2 * (-x.w + x.v1)⟩

/-- Convention of the input of `transfToR<ch_bubble>`: a channel or the purely fermionic one `'f'`. -/
inductive Conv
  | ch (c : Ch) | f
  deriving DecidableEq, Repr

/-- `transfToR` of an `rvert` of channel `to`, real-frequency / zero-temperature branches,
r_vertex.hpp:1598-1749. -/
def transf {K : Type} [Field K] (dst : Ch) (src : Conv) (x : Fr K) : Fr K :=
  match dst, src with
  | .a, .ch .a => x
  | .a, .ch .p => ⟨-x.v1 - x.v2, 1/2 * (x.w + x.v1 - x.v2), 1/2 * (x.w - x.v1 + x.v2)⟩
  | .a, .ch .t => ⟨x.v1 - x.v2, 1/2 * (x.w + x.v1 + x.v2), 1/2 * (-x.w + x.v1 + x.v2)⟩
  | .a, .f => ⟨x.v1 - x.v2, 1/2 * (2 * x.w + x.v1 - x.v2), 1/2 * (x.v1 + x.v2)⟩
  | .p, .ch .a => ⟨x.v1 + x.v2, 1/2 * (-x.w + x.v1 - x.v2), 1/2 * (-x.w - x.v1 + x.v2)⟩
  | .p, .ch .p => x
  | .p, .ch .t => ⟨x.v1 + x.v2, 1/2 * (x.w - x.v1 + x.v2), 1/2 * (-x.w - x.v1 + x.v2)⟩
  | .p, .f => ⟨x.w + x.v1, 1/2 * (x.w - x.v1), 1/2 * (2 * x.v2 - x.w - x.v1)⟩
  | .t, .ch .a => ⟨x.v1 - x.v2, 1/2 * (x.w + x.v1 + x.v2), 1/2 * (-x.w + x.v1 + x.v2)⟩
  | .t, .ch .p => ⟨x.v1 - x.v2, 1/2 * (x.w - x.v1 - x.v2), 1/2 * (x.w + x.v1 + x.v2)⟩
  | .t, .ch .t => x
  | .t, .f => ⟨x.w - x.v2, 1/2 * (2 * x.v1 + x.w - x.v2), 1/2 * (x.w + x.v2)⟩

/-- `floor2bfreq(w / 2)` for a bosonic frequency `w` (a multiple of two in units of `π T`), as a total
function; `Freqs.Props.floor2bD_half` shows that this is what the code computes without failing. -/
def halfFloor (w : Int) : Int := 2 * (w / 4)

/-- `transfToR`, finite-temperature imaginary-frequency branches, r_vertex.hpp:1598-1749. Frequencies are
integers (multiples of `π T`). -/
def transfM (dst : Ch) (src : Conv) (x : Fr Int) : Fr Int :=
  let fl := halfFloor x.w
  match dst, src with
  | .a, .ch .a => x
  | .a, .ch .p =>
      let w := -x.v1 - x.v2 - x.w + 2 * fl
      let f := halfFloor w
      ⟨w, x.w + x.v1 + f - fl, x.w + x.v2 + f - fl⟩
  | .a, .ch .t =>
      let w := x.v1 - x.v2
      let f := halfFloor w
      ⟨w, x.w + x.v2 + f - fl, x.v1 + f - w - fl⟩
  | .a, .f =>
      let w := x.v1 - x.v2
      let f := halfFloor w
      ⟨w, x.w - f, x.v2 - f⟩
  | .p, .ch .a =>
      let w := x.v1 + x.v2 + x.w - 2 * fl
      let f := halfFloor w
      ⟨w, -x.w - x.v2 + f + fl, -x.w - x.v1 + f + fl⟩
  | .p, .ch .p => x
  | .p, .ch .t =>
      let w := x.v1 + x.v2 + x.w - 2 * fl
      let f := halfFloor w
      ⟨w, -x.v1 + f + fl, -x.w - x.v1 + f + fl⟩
  | .p, .f =>
      let w := x.w + x.v1
      let f := halfFloor w
      ⟨w, -x.v1 + f, x.v2 - w + f⟩
  | .t, .ch .a =>
      let w := x.v1 - x.v2
      let f := halfFloor w
      ⟨w, x.w + x.v2 + f - fl, x.v2 + f - fl⟩
  | .t, .ch .p =>
      let w := x.v1 - x.v2
      let f := halfFloor w
      ⟨w, -x.v1 + f + fl, x.v2 + x.w + f - fl⟩
  | .t, .ch .t => x
  | .t, .f =>
      let w := x.w - x.v2
      let f := halfFloor w
      ⟨w, x.v1 + f, x.v2 + f⟩

/-! ### Polar coordinates (`GRID == 2`), math_utils.c++:184-245 -/

/-- `K2_convert2internalFreqs`: `(w, v) ↦ (ρ, φ)`; `atan2(y, x)` is the argument of `x + i y`. -/
noncomputable def k2Internal (x : ℝ × ℝ) : ℝ × ℝ :=
  (Real.sqrt (x.1 * x.1 * (1/4) + x.2 * x.2), Complex.arg ⟨x.1 * (1/2), x.2⟩)

/-- `K2_convert2naturalFreqs`. -/
noncomputable def k2Natural (x : ℝ × ℝ) : ℝ × ℝ := (x.1 * Real.cos x.2 * 2, x.1 * Real.sin x.2)

/-- `K3_convert2internalFreqs`: `(w, v, v') ↦ (ρ, φ, θ)`. -/
noncomputable def k3Internal (x : Fr ℝ) : Fr ℝ :=
  let ρ := Real.sqrt (x.w * x.w * (1/4) + x.v1 * x.v1 + x.v2 * x.v2)
  ⟨ρ, Complex.arg ⟨x.v2, x.v1⟩, if ρ < 1 / 10^15 then 0 else Real.arccos (x.w * (1/2) / ρ)⟩

/-- `K3_convert2naturalFreqs`. -/
noncomputable def k3Natural (x : Fr ℝ) : Fr ℝ :=
  ⟨x.w * Real.cos x.v2 * 2, x.w * Real.sin x.v1 * Real.sin x.v2, x.w * Real.cos x.v1 * Real.sin x.v2⟩

end Verif.Freqs
