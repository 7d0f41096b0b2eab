import Mathlib.Algebra.Order.Floor.Ring
import Mathlib.Data.Rat.Floor
import Mathlib.Data.Nat.Digits.Defs

/-
Names of result files: `generate_filename` and `generate_data_directory`, source/utilities/util.c++:154-209, and
their use in source/main.cpp:44-72.

Strings are lists of characters.  Floating-point parameters are rational numbers (every finite double is one; `-0.0`
is not represented).
-/
namespace Verif.FileName

/-- The string as a list of characters. -/
abbrev Str := List Char

/-- A decimal digit. -/
def digit (d : Nat) : Char := ['0', '1', '2', '3', '4', '5', '6', '7', '8', '9'].getD d '0'

/-- `std::to_string` of a non-negative integer. -/
def showNat (n : Nat) : Str := if n = 0 then ['0'] else (Nat.digits 10 n).reverse.map digit

/-- `std::to_string(int)`. -/
def showInt (z : Int) : Str := if z < 0 then '-' :: showNat z.natAbs else showNat z.natAbs

/-- Round to the nearest integer, ties to even. -/
def roundEven (y : ℚ) : Int :=
  let f := ⌊y⌋
  if y - f < 1 / 2 then f else if 1 / 2 < y - f then f + 1 else if f % 2 = 0 then f else f + 1

/-- The value in units of `10⁻⁶` that is printed: magnitude. -/
def micro (x : ℚ) : Nat := (roundEven (|x| * 10 ^ 6)).natAbs

/-- Six digits after the point. -/
def show6 (m : Nat) : Str :=
  [digit (m / 100000 % 10), digit (m / 10000 % 10), digit (m / 1000 % 10), digit (m / 100 % 10),
   digit (m / 10 % 10), digit (m % 10)]

/-- `std::to_string(double)`, which is `"%f"`: six digits after the point. -/
def showDouble (x : ℚ) : Str :=
  (if x < 0 then ['-'] else []) ++ showNat (micro x / 10 ^ 6) ++ '.' :: show6 (micro x % 10 ^ 6)

/-- Constants of the executable (parameters/master_parameters.hpp, frequency_parameters.hpp). -/
structure Build where
  keldysh : Bool
  debugSymm : Bool
  sbe : Bool
  REG : Int
  maxDiag : Int
  nBOS : Int
  nBOS2 : Int
  nBOS3 : Int
  static : Bool
  phSymm : Bool
  glbV : ℚ
  lambdaIni : ℚ
  lambdaFin : ℚ
  seCorr : Int

/-- Members of `fRG_config` (data_structures.hpp:627-638). -/
structure Config where
  nloops : Int
  nODE : Int
  U : ℚ
  T : ℚ
  Gamma : ℚ
  epsilon : ℚ
  epsODEabs : ℚ
  epsODErel : ℚ

/-- `(int) x`: towards zero. -/
def toInt (x : ℚ) : Int := if x < 0 then -⌊-x⌋ else ⌊x⌋

/-- `generate_filename`, lines 181-209.  (`withSEcorrections`, line 193, is not used.) -/
def filename (b : Build) (c : Config) : Str :=
  let klass := ['K'] ++ showInt b.maxDiag ++ ['_']
  let loops := showInt c.nloops ++ ['L', 'F', '_']
  let n1 := ['n', '1', '='] ++ showInt b.nBOS ++ ['_']
  let n2 := ['n', '2', '='] ++ showInt b.nBOS2 ++ ['_']
  let n3 := ['n', '3', '='] ++ showInt b.nBOS3 ++ ['_']
  let gamma := ['G', 'a', 'm', 'm', 'a', '='] ++ showDouble c.Gamma ++ ['_']
  let gate := ['e', 'V', 'g', '='] ++ showDouble (c.epsilon + c.U * (1 / 2)) ++ ['_']
  let voltage := ['V', '='] ++ showDouble b.glbV ++ ['_']
  let temp := ['T', '='] ++ showDouble c.T ++ ['_']
  let lambda := ['L', '_', 'i', 'n', 'i', '='] ++ showInt (toInt b.lambdaIni) ++ ['_']
  let ode := ['n', 'O', 'D', 'E', '='] ++ showInt c.nODE
  let extension := ['.', 'h', '5']
  klass ++ loops ++ n1 ++ (if b.maxDiag ≥ 2 then n2 else []) ++
    (if b.static then ['s', 't', 'a', 't', 'i', 'c', '_'] else []) ++
    (if b.maxDiag ≥ 3 then n3 else []) ++ gamma ++ (if b.phSymm then [] else gate) ++
    (if b.glbV ≠ 0 then voltage else []) ++ temp ++ lambda ++ ode ++ extension

/-- The name of the job, main.cpp:61-68.  Lines 63-65, which would add the gate voltage, are between
`#ifndef PARTICLE_HOLE_SYMM` and `#endif`; that macro is always defined (as 0 or 1, master_parameters.hpp:30), so the
lines are never compiled. -/
def job (b : Build) (c : Config) : Str :=
  ['T', '='] ++ showDouble c.T ++ ['_', 'U', '='] ++ showDouble c.U ++
    (if b.sbe then ['_', 'S', 'B', 'E'] else [])

/-- `generate_data_directory`, lines 154-179. -/
def directory (b : Build) (job : Str) : Str :=
  (if b.keldysh then
    if b.debugSymm then "../Data_KF_debug".toList
    else "../Data_KF".toList ++ job ++ ['_', 'R', 'E', 'G', '='] ++ showInt b.REG
  else
    if b.debugSymm then "../Data_MF_debug".toList else "../Data_MF".toList ++ job) ++
  (if b.sbe then ['_', 'S', 'B', 'E'] else []) ++ ['/']

/-- The file of a flow, main.cpp:58-72. -/
def path (b : Build) (c : Config) : Str := directory b (job b c) ++ filename b c

end Verif.FileName
