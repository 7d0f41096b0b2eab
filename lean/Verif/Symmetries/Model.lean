import Verif.Outcome
import Verif.Freqs.Model
import Verif.Keldysh.Model

/-
Model of the symmetry transformations of vertex arguments,
/repo/source/symmetries/symmetry_transformations.{hpp,c++}, and of the tables in
/repo/source/symmetries/symmetry_table.hpp (default branch: `CONTOUR_BASIS != 1`, no SBE decomposition).
Frequencies live in a commutative ring `K`. `MAX_DIAG_CLASS > 1` is assumed, so that fermionic frequencies are
always transformed.
-/
namespace Verif.Symmetries

open Verif.Freqs (Ch Fr)
open Verif.Keldysh (iKToAlphas alphasToIK)

/-- Compile-time switches: `KELDYSH_FORMALISM`, `PARTICLE_HOLE_SYMM` and the template parameter
`is_SBE_lambda`. -/
structure Cfg where
  keldysh : Bool
  ph : Bool
  lambda : Bool
  deriving DecidableEq, Repr

/-- `IndicesSymmetryTransformations`, data_structures.hpp:596-613 (without the internal index, `kClass_aim`,
`channel_bubble` and `iw_r`, which the transformations leave alone or which no reader uses). -/
structure Ind (K : Type) where
  iK : Nat
  spin : Nat
  f : Fr K
  ch : Ch
  prefactor : Int := 1
  conj : Bool := false
  asym : Bool := false
  deriving DecidableEq, Repr

/-- `switch_channel`, symmetry_transformations.c++:3-13. -/
def switchChannel : Ch → Ch
  | .a => .t
  | .t => .a
  | .p => .p

/-- `std::swap(alphas[i], alphas[j])` on a four-element array. -/
def swapAt (l : List Nat) (i j : Nat) : List Nat :=
  (l.set i (l.getD j 0)).set j (l.getD i 0)

/-- `odd_Keldysh`, Keldysh_symmetries.hpp:217. -/
def oddKeldysh : List Nat := [1, 2, 4, 7, 8, 11, 13, 14]

variable {K : Type} [CommRing K]

/-- `T1`, symmetry_transformations.hpp:17-59: exchange of the incoming legs. `corr` is
`signFlipCorrection_MF`, zero except for finite-temperature imaginary frequencies. -/
def T1 (cfg : Cfg) (corr : K → K) (x : Ind K) : Ind K :=
  { iK := if cfg.keldysh then alphasToIK (swapAt (iKToAlphas x.iK) 2 3) else x.iK
    prefactor := if cfg.lambda then x.prefactor else x.prefactor * -1
    conj := xor x.conj false
    f := if x.ch = .p then ⟨x.f.w, x.f.v1, x.f.v2 * -1 + corr x.f.w⟩ else ⟨x.f.w * -1, x.f.v2, x.f.v1⟩
    asym := if x.ch = .p then x.asym else xor x.asym true
    ch := switchChannel x.ch
    spin := 1 - x.spin }

/-- `T2`, symmetry_transformations.hpp:61-90: exchange of the outgoing legs. -/
def T2 (cfg : Cfg) (corr : K → K) (x : Ind K) : Ind K :=
  { iK := if cfg.keldysh then alphasToIK (swapAt (iKToAlphas x.iK) 0 1) else x.iK
    prefactor := if cfg.lambda then x.prefactor else x.prefactor * -1
    conj := xor x.conj false
    f := if x.ch = .p then ⟨x.f.w, x.f.v1 * -1 + corr x.f.w, x.f.v2⟩ else x.f
    asym := x.asym
    ch := switchChannel x.ch
    spin := 1 - x.spin }

/-- `T3`, symmetry_transformations.hpp:91-94. -/
def T3 (cfg : Cfg) (corr : K → K) (x : Ind K) : Ind K := T2 cfg corr (T1 cfg corr x)

/-- The sign that `TC` and `Tph` attach to a Keldysh component (`CONTOUR_BASIS != 1`),
symmetry_transformations.hpp:118-127, 150-158. -/
def oddSign (lambda : Bool) (iK : Nat) (s : Int) : Int :=
  if lambda then (if oddKeldysh.contains iK then s * -1 else s)
  else (if oddKeldysh.contains iK then s else s * -1)

/-- `TC`, symmetry_transformations.hpp:95-146: exchange of incoming and outgoing legs with conjugation. -/
def TC (cfg : Cfg) (corr : K → K) (x : Ind K) : Ind K :=
  let iK := if cfg.keldysh then alphasToIK (swapAt (swapAt (iKToAlphas x.iK) 0 2) 1 3) else x.iK
  let f : Fr K := if x.ch = .t then ⟨x.f.w * -1, x.f.v1, x.f.v2⟩ else ⟨x.f.w, x.f.v2, x.f.v1⟩
  { iK := iK
    conj := xor x.conj true
    asym := if x.ch = .t then x.asym else xor x.asym true
    prefactor := if cfg.keldysh then oddSign cfg.lambda iK x.prefactor else x.prefactor
    f := if cfg.keldysh then f
         else
           let w := f.w * -1
           ⟨w, f.v1 * -1 + corr w, f.v2 * -1 + corr w⟩
    ch := x.ch
    spin := x.spin }

/-- `Tph`, symmetry_transformations.hpp:147-171: particle-hole transformation, Keldysh only. -/
def Tph (cfg : Cfg) (x : Ind K) : Ind K :=
  if cfg.keldysh && cfg.ph then
    { x with
      conj := xor x.conj true
      prefactor := oddSign cfg.lambda x.iK x.prefactor
      f := ⟨x.f.w * -1, x.f.v1 * -1, x.f.v2 * -1⟩ }
  else x

/-- `TR`, symmetry_transformations.hpp:172-186: time reversal, imaginary frequencies only. -/
def TR (cfg : Cfg) (corr : K → K) (x : Ind K) : Ind K :=
  if cfg.keldysh then x
  else
    let w := x.f.w * -1
    { x with
      conj := xor x.conj true
      f := ⟨w, x.f.v1 * -1 + corr w, x.f.v2 * -1 + corr w⟩ }

/-- `Ti`, symmetry_transformations.hpp:187-279. The codes with a 6 exist only with particle-hole symmetry in
the Keldysh formalism; the codes with a 7 are reachable labels in both formalisms (the switch jumps into the
body of `if (!KELDYSH)`). Any other code runs into `assert(false)`. -/
def Ti (cfg : Cfg) (corr : K → K) (i : Nat) (x : Ind K) : Res (Ind K) :=
  let t1 := T1 cfg corr
  let t2 := T2 cfg corr
  let t3 := T3 cfg corr
  let tc := TC cfg corr
  let tph := Tph cfg
  let tr := TR cfg corr
  let ph := cfg.keldysh && cfg.ph
  match i with
  | 0 => .ok x
  | 1 => .ok (t1 x)
  | 2 => .ok (t2 x)
  | 3 => .ok (t3 x)
  | 4 => .ok (tc x)
  | 14 => .ok (tc (t1 x))
  | 24 => .ok (tc (t2 x))
  | 41 => .ok (t1 (tc x))
  | 43 => .ok (t3 (tc x))
  | 34 => .ok (t3 (tc x))
  | 6 => if ph then .ok (tph x) else .error .assertion
  | 16 => if ph then .ok (tph (t1 x)) else .error .assertion
  | 26 => if ph then .ok (tph (t2 x)) else .error .assertion
  | 36 => if ph then .ok (tph (t3 x)) else .error .assertion
  | 46 => if ph then .ok (tph (tc x)) else .error .assertion
  | 146 => if ph then .ok (tph (tc (t1 x))) else .error .assertion
  | 246 => if ph then .ok (tph (tc (t2 x))) else .error .assertion
  | 346 => if ph then .ok (t3 (tc (tph x))) else .error .assertion
  | 7 => .ok (tr x)
  | 37 => .ok (t3 (tr x))
  | 47 => .ok (tr (tc x))
  | 347 => .ok (t3 (tc (tr x)))
  | _ => .error .assertion

/-- `read_symmetryreduced_rvert`, r_vertex.hpp:442-457, applied to the value `v` found at the transformed
arguments: conjugation and prefactor. -/
def applyRead {R : Type} [Ring R] [Star R] (cfg : Cfg) (x : Ind K) (v : R) : R :=
  (x.prefactor : R) * (if (cfg.keldysh || !cfg.ph) && x.conj then star v else v)

/-! ### Tables -/

/-- `K_class`, the diagrammatic classes indexing the tables. -/
inductive KClass
  | k1 | k2 | k2b | k3
  deriving DecidableEq, Repr

/-- `Components_Keldysh_a_channel`, symmetry_table.hpp:15-78, blocks K1, K2, K2b, K3 of two spins each. -/
def compsA : List Int := [
  -1,  0,  0,  1,   0,  1, -1,  0,   0, -1,  1,  0,   1,  0,  0, -1,
  -1,  0,  0,  1,   0,  1, -1,  0,   0, -1,  1,  0,   1,  0,  0, -1,
   0,  1,  2,  3,   2,  3,  0,  1,   1, -1,  3,  4,   3,  4,  1, -1,
   0,  1,  2,  3,   2,  3,  0,  1,   1, -1,  3,  4,   3,  4,  1, -1,
   0,  2,  1,  3,   1,  3, -1,  4,   2,  0,  3,  1,   3,  1,  4, -1,
   0,  2,  1,  3,   1,  3, -1,  4,   2,  0,  3,  1,   3,  1,  4, -1,
   0,  1,  1,  2,   1,  3,  4,  5,   1,  4,  3,  5,   2,  5,  5, -1,
   0,  1,  1,  2,   1,  4,  3,  5,   1,  3,  4,  5,   2,  5,  5, -1]

/-- `Components_Keldysh_p_channel`, symmetry_table.hpp:80-142. -/
def compsP : List Int := [
  -1,  0,  0, -1,   0,  1,  1,  0,   0,  1,  1,  0,  -1,  0,  0, -1,
  -1,  0,  0, -1,   0,  1,  1,  0,   0,  1,  1,  0,  -1,  0,  0, -1,
   0,  1,  1,  0,   2,  3,  3,  2,   2,  3,  3,  2,  -1,  4,  4, -1,
   0,  1,  1,  0,   2,  3,  3,  2,   2,  3,  3,  2,  -1,  4,  4, -1,
   0,  2,  2, -1,   1,  3,  3,  4,   1,  3,  3,  4,   0,  2,  2, -1,
   0,  2,  2, -1,   1,  3,  3,  4,   1,  3,  3,  4,   0,  2,  2, -1,
   0,  1,  1,  2,   1,  3,  4,  5,   1,  4,  3,  5,   2,  5,  5, -1,
   0,  1,  1,  2,   1,  4,  3,  5,   1,  3,  4,  5,   2,  5,  5, -1]

/-- `Components_Keldysh_t_channel`, symmetry_table.hpp:145-208. -/
def compsT : List Int := [
  -1,  0,  0,  1,   0, -1,  1,  0,   0,  1, -1,  0,   1,  0,  0, -1,
  -1,  0,  0,  1,   0, -1,  1,  0,   0,  1, -1,  0,   1,  0,  0, -1,
   0,  1,  2,  3,   1, -1,  3,  4,   2,  3,  0,  1,   3,  4,  1, -1,
   0,  1,  2,  3,   1, -1,  3,  4,   2,  3,  0,  1,   3,  4,  1, -1,
   0,  2,  1,  3,   2,  0,  3,  1,   1,  3, -1,  4,   3,  1,  4, -1,
   0,  2,  1,  3,   2,  0,  3,  1,   1,  3, -1,  4,   3,  1,  4, -1,
   0,  1,  1,  2,   1,  3,  4,  5,   1,  4,  3,  5,   2,  5,  5, -1,
   0,  1,  1,  2,   1,  4,  3,  5,   1,  3,  4,  5,   2,  5,  5, -1]

def KClass.idx : KClass → Nat
  | .k1 => 0 | .k2 => 1 | .k2b => 2 | .k3 => 3

/-- `Components(channel).K(k, spin, iK)` in the Keldysh formalism, symmetry_table.hpp:457-495: a rank-three
array of dimensions `{4, 2, 16}`. `none` outside the array. -/
def component (c : Ch) (k : KClass) (spin iK : Nat) : Option Int :=
  let t := match c with | .a => compsA | .p => compsP | .t => compsT
  if spin < 2 ∧ iK < 16 then t[(k.idx * 2 + spin) * 16 + iK]? else none

/-- `Transformations(channel).K(k, spin)` in the Keldysh formalism, symmetry_table.hpp:487-502. -/
def compTransf (c : Ch) (k : KClass) (spin : Nat) : Option Nat :=
  let t := match c with
    | .a => [0,2, 0,2, 3,1, 0,2]
    | .p => [0,1, 0,1, 4,41, 0,1]
    | .t => [0,2, 0,2, 3,1, 0,2]
  if spin < 2 then t[k.idx * 2 + spin]? else none

/-- `Transformations(channel).K(k, spin)` for imaginary frequencies, symmetry_table.hpp:736-738. -/
def compTransfM (c : Ch) (k : KClass) (spin : Nat) : Option Nat :=
  let t := match c with
    | .a => [0,1, 0,2, 3,1, 0,2]
    | .p => [0,1, 0,1, 4,41, 0,1]
    | .t => [0,1, 0,2, 3,1, 0,2]
  if spin < 2 then t[k.idx * 2 + spin]? else none

/-- `TransformaK1*`: symmetry_table.hpp:806-808 (Keldysh), 828-830 (with particle-hole symmetry), 877-879
(imaginary frequencies). -/
def freqK1 (keldysh ph : Bool) (c : Ch) : List Nat :=
  match keldysh, ph, c with
  | true, false, .a => [0, 3]
  | true, false, .p => [0, 0]
  | true, false, .t => [0, 3]
  | true, true, .a => [0, 3]
  | true, true, .p => [0, 6]
  | true, true, .t => [0, 3]
  | false, _, .a => [0, 3]
  | false, _, .p => [0, 4]
  | false, _, .t => [0, 3]

/-- `TransformaK2*`: symmetry_table.hpp:809-811, 836-838, 880-882. -/
def freqK2 (keldysh ph : Bool) (c : Ch) : List Nat :=
  match keldysh, ph, c with
  | true, false, .a => [0, 0, 34, 34]
  | true, false, .p => [0, 3, 0, 3]
  | true, false, .t => [0, 0, 4, 4]
  | true, true, .a => [0, 346, 34, 6]
  | true, true, .p => [0, 3, 36, 6]
  | true, true, .t => [0, 46, 4, 6]
  | false, _, .a => [0, 34, 347, 7]
  | false, _, .p => [0, 3, 37, 7]
  | false, _, .t => [0, 4, 47, 7]

/-- `TransformaK3*`: symmetry_table.hpp:812-814, 840-842, 883-885. -/
def freqK3 (keldysh ph : Bool) (c : Ch) : List Nat :=
  match keldysh, ph, c with
  | true, false, .a => [0, 4, 0, 4, 34, 3, 34, 3]
  | true, false, .p => [0, 4, 34, 3, 0, 4, 34, 3]
  | true, false, .t => [0, 34, 0, 34, 4, 3, 4, 3]
  | true, true, .a => [0, 4, 36, 346, 34, 3, 46, 6]
  | true, true, .p => [0, 4, 34, 3, 36, 346, 46, 6]
  | true, true, .t => [0, 34, 36, 46, 4, 3, 346, 6]
  | false, _, .a => [0, 47, 37, 34, 347, 3, 4, 7]
  | false, _, .p => [0, 47, 347, 3, 37, 34, 4, 7]
  | false, _, .t => [0, 347, 37, 4, 47, 3, 34, 7]

/-! ### Selection of the frequency transformation -/

section
variable [LT K] [DecidableRel (fun x y : K => x < y)]

/-- `sign_index`, math_utils.hpp:40-48, with `safety` as a parameter. -/
def signIndex (safety x : K) : Nat := if safety < x then 1 else 0

/-- Code selected in `enforce_freqsymmetriesK1`, r_vertex.hpp:1796-1797. -/
def selectK1 (cfg : Cfg) (ε : K) (c : Ch) (f : Fr K) : Option Nat :=
  (freqK1 cfg.keldysh cfg.ph c)[signIndex ε f.w]?

/-- Code selected in `enforce_freqsymmetriesK2`, r_vertex.hpp:1832-1834. -/
def selectK2 (cfg : Cfg) (ε : K) (c : Ch) (f : Fr K) : Option Nat :=
  (freqK2 cfg.keldysh cfg.ph c)[signIndex ε f.w * 2 + signIndex ε f.v1]?

/-- Code selected in `enforce_freqsymmetriesK3`, r_vertex.hpp:1876-1882; `shift` is
`signFlipCorrection_MF(w) * 0.5` for finite-temperature imaginary frequencies and zero otherwise. -/
def selectK3 (cfg : Cfg) (ε : K) (shift : K → K) (c : Ch) (f : Fr K) : Option Nat :=
  (freqK3 cfg.keldysh cfg.ph c)[signIndex ε f.w * 4 + signIndex ε (f.v1 + f.v2 - shift f.w) * 2 +
    signIndex ε (f.v1 - f.v2)]?

end

end Verif.Symmetries
