import Verif.Export.Model
import Verif.FileName.Model
import Verif.Outcome

/-
Diagnostic output of the integrands: `Integrand::save_integrand`, source/bubble/integrand.hpp:1270-1345, and
`IntegrandSE::save_integrand`, source/loop/integrandSE.hpp:254-298.

Strings are lists of characters, numbers are rational.  The values of the integrand are a function of the internal
frequency; the bubble and the vertex values stored beside them are left out.
-/
namespace Verif.Export
open Verif.FileName

/-- Channel of an integrand (template parameter `channel`). -/
inductive Chan where
  | a | p | t
  deriving DecidableEq

/-- The character of the channel. -/
def Chan.ch : Chan → Char
  | .a => 'a'
  | .p => 'p'
  | .t => 't'

/-- What identifies an integrand: template parameters and members, integrand.hpp:92-104.  `spin` is the external spin
component. -/
structure Label where
  cls : KClass
  chan : Chan
  i0 : Int
  i2 : Int
  w : ℚ
  v : ℚ
  vp : ℚ
  iIn : Int
  spin : Nat

/-- Ends of the frequency boxes of the `a` vertex that are asked for, integrand.hpp:1283-1297. -/
structure Boxes where
  k1 : ℚ × ℚ
  k2 : ℚ × ℚ
  k3 : ℚ × ℚ

/-- The number of sample points, integrand.hpp:1274-1276. -/
def sampleNumber (c : KClass) : Nat := if c = .k2 then 1000 else if c = .k3 then 100 else 10000

/-- The interval that is sampled, integrand.hpp:1281-1299; for the other classes both ends are read without having been
set. -/
def sampleRange (b : Boxes) : KClass → Res (ℚ × ℚ)
  | .k1 => .ok (b.k1.1 * 2, b.k1.2 * 2)
  | .k2 => .ok b.k2
  | .k3 => .ok b.k3
  | _ => .error .undefined

/-- `npoints` sample points, integrand.hpp:1300-1301 and integrandSE.hpp:267-268. -/
def samplePoints (n : Nat) (wl wu : ℚ) : List ℚ := (List.range n).map fun i : Nat => wl + (i : ℚ) * (wu - wl) / (n - 1)

/-- Points of `Integrand::save_integrand()`, integrand.hpp:1272-1304. -/
def integrandPoints (b : Boxes) (c : KClass) : Res (List ℚ) :=
  (sampleRange b c).map fun r => samplePoints (sampleNumber c) r.1 r.2

/-- Points of `IntegrandSE::save_integrand()`, integrandSE.hpp:255-271. -/
def selfPoints (wl wu : ℚ) : List ℚ := samplePoints 100000 (wl * 2) (wu * 2)

/-- The number of the class in the file name, integrand.hpp:1326. -/
def classMark (c : KClass) : Str :=
  if c = .k1 then ['1'] else if c = .k2 then ['2'] else if c = .k3 then ['3'] else ['2', 'b']

/-- The optional part of the name, integrand.hpp:1331-1332. -/
def legMark (l : Label) : Str :=
  if l.cls = .k2 then '_' :: 'v' :: '=' :: showDouble l.v
  else if l.cls = .k3 then '_' :: 'v' :: 'p' :: '=' :: showDouble l.vp else []

/-- The name of the file, integrand.hpp:1324-1334. -/
def integrandName (dir pre : Str) (l : Label) : Str :=
  dir ++ (pre ++ "integrand_K".toList ++ classMark l.cls ++ (l.chan.ch :: ("_i0=".toList ++ showInt l.i0
    ++ ("_i2=".toList ++ showInt l.i2 ++ ("_w=".toList ++ showDouble l.w ++ (legMark l ++ ("_i_in=".toList ++ showInt l.iIn
    ++ ".h5".toList)))))))

/-- The name of the file of a self-energy integrand, integrandSE.hpp:284-288. -/
def selfName (dir pre : Str) (v : ℚ) : Str := dir ++ pre ++ "integrand_SE".toList ++ ("_v=".toList ++ showDouble v ++ ".h5".toList)

/-- The files of a directory: name to list of (frequency, value). -/
abbrev Folder := Str → Option (List (ℚ × ℚ))

/-- Creating or truncating the file of that name and writing the samples of `f`, integrand.hpp:1336-1343; only rank 0
writes. -/
def saveSamples (rank : Nat) (name : Str) (freqs : List ℚ) (f : ℚ → ℚ) (d : Folder) : Folder :=
  if rank = 0 then fun n => if n = name then some (freqs.map fun x => (x, f x)) else d n else d

end Verif.Export
