import Verif.MfRG.Model

/-
Intermediate results of the right-hand side of the flow: `mfRG_record` and its `save_states`,
source/mfRG_flow/right_hand_sides.hpp:68-131, the places of `rhs_n_loop_flow` (same file) that fill and save it, and
the counters of the drivers that decide when this happens, `rhs_n_loop_flow_t` (549-564) with
source/ODE_solvers/ODE_solvers.hpp.

Modelled: the lists of recorded parts, the files by name with the state in their first layer, indices beyond the end
of a list (undefined).  Not modelled: the grids and parameters in the files (see Hdf5), tests of symmetries.
-/
namespace Verif.Record

open MfRG

variable {V S : Type}

/-- The diagrams as in `MfRG.Eqs`, with the two forms of the central part kept apart. -/
structure Diagrams (V S : Type) where
  base : Eqs V S
  /-- `calculate_dGammaC_right_insertion` from the two stored halves, right_hand_sides.hpp:331-352 -/
  cr : V → V → V
  /-- `calculate_dGammaC_left_insertion`, right_hand_sides.hpp:364-372 -/
  cl : V → V → V
  /-- lines 382-394: second classes exchanged, then the mean -/
  mean : V → V → V

/-- The equations with the central part made of the two insertions. -/
def Diagrams.eqs (D : Diagrams V S) : Eqs V S := { D.base with central := fun l r => D.mean (D.cr l r) (D.cl l r) }

/-- `mfRG_record`, lines 67-74. -/
structure Rec (V S : Type) where
  one : V × S
  L : List V
  R : List V
  Cl : List V
  Cr : List V
  corr : V × S

/-- The body of the loop over `i = 3 …` with its four `push_back`s, lines 326-435. -/
def body [Add V] (D : Diagrams V S) (s : Loop V) (r : Rec V S) : Loop V × Rec V S :=
  (s.body D.eqs,
    { r with Cr := r.Cr ++ [D.cr s.L s.R], Cl := r.Cl ++ [D.cl s.L s.R],
             L := r.L ++ [D.base.left s.T], R := r.R ++ [D.base.right s.T] })

/-- The loop over loop orders, line 325. -/
def go [Add V] (D : Diagrams V S) (c : Cfg) : Nat → Loop V → Rec V S → Loop V × Rec V S
  | 0, s, r => (s, r)
  | k + 1, s, r =>
    let p := body D s r
    if p.1.done D.eqs c then p else go D c k p.1 p.2

/-- The vertex part of a pass, lines 237-437; `σ` is `dPsi.selfenergy`, `zero` the contents of the correction
before it is computed (`dPsi_1loop * 0.`, line 74). -/
def vertexPass [Add V] [Zero V] [Zero S] (D : Diagrams V S) (c : Cfg) (σ : S) : (V × V) × Rec V S :=
  let one := D.base.one σ
  let r : Rec V S := ⟨(one, σ), [], [], [], [], (0, 0)⟩
  if c.nloops ≥ 2 then
    let L := D.base.left one
    let R := D.base.right one
    let T := L + R
    let LR := D.base.reorder (L, R)
    let s : Loop V := ⟨one + T, T, LR.1, LR.2, 0⟩
    let r : Rec V S := { r with L := [L], R := [R] }
    if c.nloops ≥ 3 then
      let p := go D c (c.nloops - 2).toNat s r
      ((p.1.total, p.1.ctbar), p.2)
    else ((s.total, 0), r)
  else ((one, 0), r)

/-- One pass of the self-energy iteration with the record it leaves, lines 221-539. -/
def pass [Add V] [Zero V] [Zero S] [Add S] [Sub S] (D : Diagrams V S) (c : Cfg) (x : Iter V S) :
    Iter V S × Rec V S :=
  let v := vertexPass D c x.sigma
  let r := if c.nloops ≥ 3 ∧ c.seCorr = true then { v.2 with corr := (v.1.1, D.base.corr v.1.2) } else v.2
  (x.pass D.eqs c, r)

/-- Files of the directory `intermediateResults`; the numbers are the Runge-Kutta step, the self-energy iteration
and the loop order in the name, lines 77, 88-89, 105-106, 118. -/
inductive Name
  | one (rk se : Nat)
  | left (rk se loop : Nat)
  | right (rk se loop : Nat)
  | centralL (rk se loop : Nat)
  | centralR (rk se loop : Nat)
  | correction (rk se : Nat)
  deriving DecidableEq

/-- A file: vertex and self-energy of each layer, and the number of layers. -/
structure File (V S : Type) where
  layers : Nat
  row : Nat → Option (V × S)

/-- Contents of the directory. -/
abbrev Dir (V S : Type) := Name → Option (File V S)

/-- `write_state_to_hdf` replaces the file by one with the state in layer 0; `add_state_to_hdf` needs the file and
the layer (utilities/hdf5_routines.hpp). -/
def put (d : Dir V S) (n : Name) (it layers : Nat) (x : V × S) : Res (Dir V S) :=
  if it = 0 then .ok fun m => if m = n then some ⟨layers, fun k => if k = 0 then some x else none⟩ else d m
  else match d n with
    | none => .error .exception
    | some f => if it < f.layers then
        .ok fun m => if m = n then some ⟨f.layers, fun k => if k = it then some x else f.row k⟩ else d m
      else .error .assertion

/-- Element access of a vector without test of the index. -/
def elem (l : List V) (i : Nat) : Res V := match l[i]? with
  | some x => .ok x
  | none => .error .undefined

/-- Body of the first loop of `save_states`, lines 87-100, for its counter `i`. -/
def saveLR (r : Rec V S) (it rk se layers i : Nat) (d : Dir V S) : Res (Dir V S) := do
  let l ← elem r.L (i - 1)
  let g ← elem r.R (i - 1)
  let d ← put d (.left rk se (i + 1)) it layers (l, r.one.2)
  put d (.right rk se (i + 1)) it layers (g, r.one.2)

/-- Body of the second loop, lines 103-116. -/
def saveC (r : Rec V S) (it rk se layers i : Nat) (d : Dir V S) : Res (Dir V S) := do
  let l ← elem r.Cl (i - 2)
  let g ← elem r.Cr (i - 2)
  let d ← put d (.centralL rk se (i + 1)) it layers (l, r.one.2)
  put d (.centralR rk se (i + 1)) it layers (g, r.one.2)

/-- `for (int i = a; i < a + k; i++)`. -/
def forRange (f : Nat → Dir V S → Res (Dir V S)) (a : Nat) : Nat → Dir V S → Res (Dir V S)
  | 0, d => .ok d
  | k + 1, d => do
    let d ← f a d
    forRange f (a + 1) k d

/-- `save_states`, lines 76-128: `n_loop` is one more than the number of recorded left parts. -/
def saveStates (r : Rec V S) (it rk se layers : Nat) (d : Dir V S) : Res (Dir V S) := do
  let n := r.L.length + 1
  let d ← put d (.one rk se) it layers r.one
  let d ← forRange (saveLR r it rk se layers) 1 (n - 1) d
  let d ← forRange (saveC r it rk se layers) 2 (n - 2) d
  if n > 2 then put d (.correction rk se) it layers r.corr else .ok d

/-- One pass and the saving at its end, line 539: the number of the iteration is read after it was increased. -/
def passSave [Add V] [Zero V] [Zero S] [Add S] [Sub S] (D : Diagrams V S) (c : Cfg) (save : Bool)
    (it rk layers : Nat) (x : Iter V S) (d : Dir V S) : Res (Iter V S × Dir V S) := do
  let p := pass D c x
  let d ← if save then saveStates p.2 it rk p.1.counter layers d else .ok d
  return (p.1, d)

/-- Repeating passes; the first number bounds the recursion (at most `nmax_Selfenergy_iterations` passes). -/
def iterSave [Add V] [Zero V] [Zero S] [Add S] [Sub S] (D : Diagrams V S) (c : Cfg) (save : Bool)
    (it rk layers : Nat) : Nat → Iter V S → Dir V S → Res (Iter V S × Dir V S)
  | 0, x, d => .ok (x, d)
  | k + 1, x, d => if x.again c then do
      let p ← passSave D c save it rk layers x d
      iterSave D c save it rk layers k p.1 p.2
    else .ok (x, d)

/-- `rhs_n_loop_flow` with saving, lines 172-555: saved is the evaluation whose iteration number and Runge-Kutta
step are zero, if the configuration asks for it (lines 183-190). -/
def rhsSave [Add V] [Zero V] [Zero S] [Add S] [Sub S] (D : Diagrams V S) (c : Cfg) (wanted : Bool)
    (it rk layers : Nat) (d : Dir V S) : Res (Iter V S × Dir V S) :=
  if c.nloops ≥ 1 then do
    let save := rk == 0 && it == 0 && wanted
    let p ← passSave D c save it rk layers ⟨0, D.base.oneSE, [], [], 0, some (10 ^ 10), some 1⟩ d
    if c.seCorr then iterSave D c save it rk layers c.nmax p.1 p.2 else return p
  else .error .assertion

/-- The counters `iteration` and `rk_step` of `rhs_n_loop_flow_t`, lines 560-561. -/
structure Ctr where
  it : Nat
  rk : Nat
  deriving DecidableEq

/-- `operator()`, lines 568-571, called `n` times: the counters seen by each call and those left behind. -/
def calls : Nat → Ctr → List Ctr × Ctr
  | 0, c => ([], c)
  | n + 1, c => let r := calls n ⟨c.it, c.rk + 1⟩; (c :: r.1, r.2)

/-- The attempts of one step of the built-in driver, ODE_solvers.hpp:329-341: `s` stages, of which the first is
evaluated once per step (line 320); after every attempt `rk_step` is set to one (340). -/
def ownAttempts (s : Nat) : Nat → Ctr → List Ctr × Ctr
  | 0, c => ([], c)
  | k + 1, c =>
    let r := calls (s - 1) c
    let q := ownAttempts s k ⟨c.it, 1⟩
    (r.1 ++ q.1, q.2)

/-- One step of the built-in driver with the given number of attempts, ODE_solvers.hpp:501-560: the number of the
step is stored first (509). -/
def ownStep (s i attempts : Nat) (c : Ctr) : List Ctr × Ctr :=
  let r := calls 1 ⟨i, c.rk⟩
  let q := ownAttempts s attempts r.2
  (r.1 ++ q.1, q.2)

/-- The built-in driver from iteration `i` on, `as` the attempts in each step. -/
def own (s : Nat) : Nat → List Nat → Ctr → List Ctr
  | _, [], _ => []
  | i, a :: as, c => let r := ownStep s i a c; r.1 ++ own s (i + 1) as r.2

/-- The attempts of one step of the Boost driver, ODE_solvers.hpp:687-719: every attempt evaluates all `s` stages;
after each of them `rk_step` is set to zero (714). -/
def boostAttempts (s : Nat) : Nat → Ctr → List Ctr × Ctr
  | 0, c => ([], c)
  | k + 1, c =>
    let r := calls s c
    let q := boostAttempts s k ⟨c.it, 0⟩
    (r.1 ++ q.1, q.2)

/-- The Boost driver from iteration `i` on: the number of the step is stored after it (726). -/
def boost (s : Nat) : Nat → List Nat → Ctr → List Ctr
  | _, [], _ => []
  | i, a :: as, c => let r := boostAttempts s a c; r.1 ++ boost s (i + 1) as ⟨i + 1, r.2.rk⟩

/-- The constructor of `rhs_n_loop_flow_t`: both counters are zero. -/
def fresh : Ctr := ⟨0, 0⟩

/-- Whether an evaluation saves, lines 183-190. -/
def saves (c : Ctr) : Bool := c.rk == 0 && c.it == 0

/-- Several evaluations one after the other on the same directory: the `j`-th one with the diagrams `D j`. -/
def evalAll [Add V] [Zero V] [Zero S] [Add S] [Sub S] (D : Nat → Diagrams V S) (c : Cfg) (wanted : Bool)
    (layers : Nat) : Nat → List Ctr → Dir V S → Res (Dir V S)
  | _, [], d => .ok d
  | j, k :: ks, d => do
    let p ← rhsSave (D j) c wanted k.it k.rk layers d
    evalAll D c wanted layers (j + 1) ks p.2

end Verif.Record
