import Verif.Outcome
import Mathlib.Algebra.Group.Defs
import Mathlib.Algebra.Group.Basic

/-
Model of /repo/source/perturbation_theory_and_parquet/perturbation_theory.hpp and of how
/repo/source/bubble/bubble_function.hpp writes its result. The values of one diagrammatic class in one channel on its
whole grid are an element of an additive group `A`; the numerical evaluation of a bubble is an unspecified function.
-/
namespace Verif.Perturb

/-- The channels. -/
inductive Ch | a | p | t
  deriving DecidableEq

/-- The diagrammatic classes; `k2b` is stored only with `DEBUG_SYMMETRIES`. -/
inductive Cls | k1 | k2 | k2b | k3
  deriving DecidableEq

/-- A vertex, /repo/source/correlation_functions/four_point/vertex.hpp:66-90: irreducible part and reducible parts. -/
structure Vtx (A : Type) where
  irred : A
  red : Ch → Cls → A

/-- A self-energy: data on the grid and asymptotic value. -/
structure SE (S : Type) where
  data : S
  asymp : S

/-- A state. -/
structure St (A S : Type) where
  vertex : Vtx A
  se : SE S

variable {A S : Type}

/-- `GeneralVertex::operator+`, vertex.hpp:1117-1125. -/
def Vtx.plus [Add A] (x y : Vtx A) : Vtx A := ⟨x.irred + y.irred, fun c k => x.red c k + y.red c k⟩

/-- `SelfEnergy::operator+`, selfenergy.hpp:83-91: data and asymptotic value are added. -/
def SE.plus [Add S] (x y : SE S) : SE S := ⟨x.data + y.data, x.asymp + y.asymp⟩

/-- A vertex constructed by `Vertex(Lambda, config)`: all zero. -/
def Vtx.zero [Zero A] : Vtx A := ⟨0, fun _ _ => 0⟩

/-- `initialize(val)`, vertex.hpp:1799-1801: only the irreducible part is set. -/
def Vtx.init (x : Vtx A) (val : A) : Vtx A := { x with irred := val }

/-- What the numerics provides: the class-`k` part of the bubble of two vertices in a channel (`get_value` for all
external arguments), the loop over a vertex, the bare vertex and the Hartree term. -/
structure Numerics (A S : Type) where
  bubble : Ch → Cls → Vtx A → Vtx A → A
  loop : Vtx A → S
  bare : A
  hartree : S

/-- Which classes are computed, bubble_function.hpp:207-249: the flags are for K1, K2 (and K2'), K3. -/
def computed (debug : Bool) (todo : Bool × Bool × Bool) : Cls → Bool
  | .k1 => todo.1
  | .k2 => todo.2.1
  | .k2b => todo.2.1 && debug
  | .k3 => todo.2.2

/-- `bubble_function(dgamma, vertex1, vertex2, Pi, channel, config, tobecomputed)`, bubble_function.hpp:960-985; the
results are stored with `set_vec`, bubble_function.hpp:555-602 (`MAX_DIAG_CLASS = 3`). -/
def bubbleFunction (N : Numerics A S) (debug : Bool) (dst l r : Vtx A) (ch : Ch) (todo : Bool × Bool × Bool := (true, true, true)) :
    Vtx A :=
  { dst with red := fun c k => if c = ch ∧ computed debug todo k then N.bubble ch k l r else dst.red c k }

/-- The dispatch on the channel letter, bubble_function.hpp:968-984: any other letter is silently ignored. -/
def bubbleFunctionChar (N : Numerics A S) (debug : Bool) (dst l r : Vtx A) (ch : Char)
    (todo : Bool × Bool × Bool := (true, true, true)) : Vtx A :=
  if ch = 'a' then bubbleFunction N debug dst l r .a todo
  else if ch = 'p' then bubbleFunction N debug dst l r .p todo
  else if ch = 't' then bubbleFunction N debug dst l r .t todo
  else dst

/-- The bare state, perturbation_theory.hpp:167-168, state.hpp `initialize`: constructed and initialised. -/
def bareState [Zero A] [Zero S] (N : Numerics A S) : St A S := ⟨Vtx.zero.init N.bare, ⟨0, N.hartree⟩⟩

/-- `vertexInSOPT`, perturbation_theory.hpp:34-48. -/
def vertexInSOPT (N : Numerics A S) (debug : Bool) (psi : Vtx A) (b : St A S) : Vtx A :=
  [Ch.a, .p, .t].foldl (fun x r => bubbleFunction N debug x b.vertex b.vertex r (true, false, false)) psi

/-- `selfEnergyInSOPT`, perturbation_theory.hpp:58-72: `loop` overwrites the
data of the self-energy it is given. -/
def selfEnergyInSOPT [Zero A] (N : Numerics A S) (debug : Bool) (b : St A S) : SE S :=
  let bubbleA := bubbleFunction N debug Vtx.zero b.vertex b.vertex .a (true, false, false)
  ⟨N.loop bubbleA, b.se.asymp⟩

/-- `sopt_state_impl`, perturbation_theory.hpp:143-155. -/
def soptImpl [Zero A] (N : Numerics A S) (debug : Bool) (psi : St A S) (b : St A S) : St A S :=
  ⟨vertexInSOPT N debug psi.vertex b, selfEnergyInSOPT N debug b⟩

/-- `sopt_state(Psi, diff)`, perturbation_theory.hpp:163-185, for a state that passes the assertion
`Psi.initialized`; `diff = false`. -/
def sopt [Zero A] [Zero S] (N : Numerics A S) (debug : Bool) (psi : St A S) : St A S :=
  soptImpl N debug psi (bareState N)

/-- `sopt_state(Psi, Lambda, config)`, perturbation_theory.hpp:187-190: the call in the body has three arguments and
resolves to the function itself; `fuel` bounds the depth of the call stack. -/
def soptOverload (N : Numerics A S) (debug : Bool) : Nat → St A S → Option (St A S)
  | 0, _ => none
  | fuel + 1, psi => soptOverload N debug fuel psi

/-- `vertexInTOPT`, perturbation_theory.hpp:74-107. -/
def vertexInTOPT [Add A] [Zero A] (N : Numerics A S) (debug : Bool) (psi : Vtx A) (b s : St A S) : Vtx A :=
  let B := fun (dst l r : Vtx A) (ch : Ch) => bubbleFunction N debug dst l r ch
  let v0 := b.vertex
  let ba := B (Vtx.zero.init 0) v0 v0 .a
  let bp := B (Vtx.zero.init 0) v0 v0 .p
  if debug then
    let bp := bp.init 0
    let bt := B Vtx.zero v0 v0 .t
    let psi := B psi ba v0 .a
    let psi := B psi bp v0 .p
    let psi := B psi bt v0 .t
    let psi := B psi (bp.plus bt) v0 .a
    let psi := B psi (ba.plus bt) v0 .p
    let psi := B psi (ba.plus bp) v0 .t
    let psi := B psi v0 (bp.plus bt) .a
    let psi := B psi v0 (ba.plus bt) .p
    B psi v0 (ba.plus bp) .t
  else
    let psi := B psi s.vertex v0 .t
    let psi := B psi bp v0 .a
    B psi ba v0 .p

/-- `vertexInFOPT`, perturbation_theory.hpp:110-133. -/
def vertexInFOPT [Add A] [Zero A] (N : Numerics A S) (debug : Bool) (psi : Vtx A) (b : St A S) : Vtx A :=
  let B := fun (dst l r : Vtx A) (ch : Ch) => bubbleFunction N debug dst l r ch
  let v0 := b.vertex
  let ba := B (Vtx.zero.init 0) v0 v0 .a
  let bp := B (Vtx.zero.init 0) v0 v0 .p
  let bt := B (Vtx.zero.init 0) v0 v0 .t
  let psi := if debug then B (B psi (bp.plus bt) (bp.plus bt) .a) (ba.plus bt) (ba.plus bt) .p
    else B (B psi bp bp .a) ba ba .p
  B psi (ba.plus bp) (ba.plus bp) .t

/-- `topt_state`, perturbation_theory.hpp:192-218. -/
def topt [Add A] [Zero A] [Add S] [Zero S] (N : Numerics A S) (debug : Bool) : St A S :=
  let b := bareState N
  let s := soptImpl N debug ⟨Vtx.zero, ⟨0, 0⟩⟩ b
  ⟨vertexInTOPT N debug (s.vertex.plus b.vertex) b s, b.se.plus s.se⟩

/-- `fopt_state`, perturbation_theory.hpp:221-254. -/
def fopt [Add A] [Zero A] [Add S] [Zero S] (N : Numerics A S) (debug : Bool) : St A S :=
  let b := bareState N
  let s := soptImpl N debug ⟨Vtx.zero, ⟨0, 0⟩⟩ b
  ⟨vertexInFOPT N debug (vertexInTOPT N debug (s.vertex.plus b.vertex) b s) b, b.se.plus s.se⟩

end Verif.Perturb
