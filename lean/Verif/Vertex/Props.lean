import Verif.Vertex.Spec
import Verif.Freqs.Props
import Mathlib.Tactic.Abel
import Mathlib.Tactic.IntervalCases
import Mathlib.Tactic.Ring
import Mathlib.Tactic.NormNum
import Mathlib.Tactic.LinearCombination

namespace Verif.Vertex

open Freqs (Ch Fr)

section
variable {R F V : Type} [AddCommGroup V]

theorem rvValue_eq (cf : Conf F) (rd : Reader R F V) (dst src : Ch) (this cross : R) (x : Input F) :
    rvValue cf rd dst src this cross x
      = allClasses cf.maxDiag rd this cross ⟨x.iK, x.spin, x.iIn, cf.tr dst src x.f⟩ := by
  simp only [rvValue, allClasses, ge_iff_le]
  split_ifs <;> abel

/-- C45. The value function is the bare part plus the three reducible parts (without the channel's own for
a channel-irreducible vertex). -/
theorem c45_value (cf : Conf F) (rd : Reader R F V) (Γ : Full R V) (b : Ch) (x : Input F)
    (htr : cf.tr b b x.f = x.f) :
    value cf rd Γ b false x = fullVertex cf rd Γ b x ∧
      value cf rd Γ b true x = irreducibleVertex cf rd Γ b x := by
  constructor
  · simp only [value, chValue, rvValue_eq, fullVertex, Full.ch, Full.crossing]
    simp
  · simp only [value, gammaRb, chValue, rvValue_eq, irreducibleVertex, fullVertex]
    cases b <;> simp only [Full.ch, Full.crossing, htr, if_true] <;> abel

theorem rv_split (cf : Conf F) (rd : Reader R F V) (this cross : R) (x : Input F)
    (h1 : 1 ≤ cf.maxDiag) (h3 : cf.maxDiag ≤ 3) :
    rvLeftSame cf rd this cross x + rvLeftDiff cf rd this cross x = allClasses cf.maxDiag rd this cross x ∧
      rvRightSame cf rd this cross x + rvRightDiff cf rd this cross x
        = allClasses cf.maxDiag rd this cross x := by
  have : cf.maxDiag = 1 ∨ cf.maxDiag = 2 ∨ cf.maxDiag = 3 := by omega
  rcases this with h | h | h <;>
    simp only [rvLeftSame, rvLeftDiff, rvRightSame, rvRightDiff, allClasses, h] <;> norm_num <;>
    first | (constructor <;> abel) | abel

/-- C45 (without static feedback; for a channel-irreducible vertex the build keeps at least the second
class). For every channel and every argument the part that depends on the fermionic frequency of the left
(right) legs and the part that does not add up to the vertex, for the full and for the channel-irreducible
vertex. -/
theorem c45_partial (cf : Conf F) (rd : Reader R F V) (Γ : Full R V) (b : Ch) (x : Input F) (irr : Bool)
    (h1 : 1 ≤ cf.maxDiag) (h3 : cf.maxDiag ≤ 3) (hs : cf.static = false)
    (hi : irr = true → 2 ≤ cf.maxDiag) (htr : cf.tr b b x.f = x.f) :
    (∃ s d, leftSame cf rd Γ b irr x = .ok s ∧ leftDiff cf rd Γ b irr false x = .ok d ∧
      s + d = value cf rd Γ b irr x) ∧
    (∃ s d, rightSame cf rd Γ b irr x = .ok s ∧ rightDiff cf rd Γ b irr false x = .ok d ∧
      s + d = value cf rd Γ b irr x) := by
  obtain ⟨hl, hr⟩ := rv_split cf rd (Γ.ch b) (Γ.crossing b) x h1 h3
  have hv := c45_value cf rd Γ b x htr
  cases irr
  · have hg : gammaRb cf rd Γ b x = irreducibleVertex cf rd Γ b x - Γ.irred x.iK x.iIn x.spin := by
      rw [← hv.2]; simp [value]
    rw [hv.1]
    constructor
    · refine ⟨_, _, by simp [leftSame, hs]; rfl, by simp [leftDiff]; rfl, ?_⟩
      rw [hg, irreducibleVertex, show Input.mk x.iK x.spin x.iIn x.f = x from rfl, ← hl]
      abel
    · refine ⟨_, _, by simp [rightSame, hs]; rfl, by simp [rightDiff]; rfl, ?_⟩
      rw [hg, irreducibleVertex, show Input.mk x.iK x.spin x.iIn x.f = x from rfl, ← hr]
      abel
  · have h2 := hi rfl
    constructor
    · exact ⟨_, _, by simp [leftSame]; rfl, by simp [leftDiff, h2]; rfl, by simp [value]⟩
    · exact ⟨_, _, by simp [rightSame]; rfl, by simp [rightDiff, h2]; rfl, by simp [value]⟩

/-- Both frequency conversions of the code leave arguments in the channel's own convention unchanged. -/
theorem own_convention {K : Type} [Field K] (b : Ch) (x : Fr K) (y : Fr Int) :
    Freqs.transf b (.ch b) x = x ∧ Freqs.transfM b (.ch b) y = y := by
  cases b <;> exact ⟨rfl, rfl⟩

/-- C45 (asymmetric vertices, for which only the channel itself is kept). The two parts add up to the bare
part plus the channel's own reducible part. -/
theorem c45_only_channel (cf : Conf F) (rd : Reader R F V) (Γ : Full R V) (b : Ch) (x : Input F)
    (h1 : 1 ≤ cf.maxDiag) (h3 : cf.maxDiag ≤ 3) (hs : cf.static = false) :
    (∃ s d, leftSame cf rd Γ b false x = .ok s ∧ leftDiff cf rd Γ b false true x = .ok d ∧
      s + d = Γ.irred x.iK x.iIn x.spin + allClasses cf.maxDiag rd (Γ.ch b) (Γ.crossing b) x) ∧
    (∃ s d, rightSame cf rd Γ b false x = .ok s ∧ rightDiff cf rd Γ b false true x = .ok d ∧
      s + d = Γ.irred x.iK x.iIn x.spin + allClasses cf.maxDiag rd (Γ.ch b) (Γ.crossing b) x) := by
  obtain ⟨hl, hr⟩ := rv_split cf rd (Γ.ch b) (Γ.crossing b) x h1 h3
  constructor
  · refine ⟨_, _, by simp [leftSame, hs]; rfl, by simp [leftDiff]; rfl, ?_⟩
    rw [← hl]; abel
  · refine ⟨_, _, by simp [rightSame, hs]; rfl, by simp [rightDiff]; rfl, ?_⟩
    rw [← hr]; abel

/-- C45. The "same" part of the left (right) vertex does not depend on the left (right) fermionic
frequency — with or without static feedback. -/
theorem c45_independent (cf : Conf F) (rd : Reader R F V) (hloc : Local rd) (Γ : Full R V) (b : Ch)
    (irr : Bool) (iK s i : Nat) (w v1 v1' v2 v2' : F) :
    leftSame cf rd Γ b irr ⟨iK, s, i, ⟨w, v1, v2⟩⟩ = leftSame cf rd Γ b irr ⟨iK, s, i, ⟨w, v1', v2⟩⟩ ∧
      rightSame cf rd Γ b irr ⟨iK, s, i, ⟨w, v1, v2⟩⟩ = rightSame cf rd Γ b irr ⟨iK, s, i, ⟨w, v1, v2'⟩⟩ := by
  have k1 : ∀ (q : R) (q' : R) (w v1 v1' v2 v2' : F), rd .k1 q q' ⟨iK, s, i, ⟨w, v1, v2⟩⟩
      = rd .k1 q q' ⟨iK, s, i, ⟨w, v1', v2'⟩⟩ := fun q q' w v1 v1' v2 v2' =>
    hloc .k1 q q' iK s i _ _ ⟨rfl, trivial⟩
  have k2b : ∀ (q : R) (q' : R) (w v1 v1' v2 : F), rd .k2b q q' ⟨iK, s, i, ⟨w, v1, v2⟩⟩
      = rd .k2b q q' ⟨iK, s, i, ⟨w, v1', v2⟩⟩ := fun q q' w v1 v1' v2 =>
    hloc .k2b q q' iK s i _ _ ⟨rfl, rfl⟩
  have k2 : ∀ (q : R) (q' : R) (w v1 v2 v2' : F), rd .k2 q q' ⟨iK, s, i, ⟨w, v1, v2⟩⟩
      = rd .k2 q q' ⟨iK, s, i, ⟨w, v1, v2'⟩⟩ := fun q q' w v1 v2 v2' =>
    hloc .k2 q q' iK s i _ _ ⟨rfl, rfl⟩
  constructor
  · simp only [leftSame, rvLeftSame, staticPart]
    rw [k1 _ _ w v1 v1' v2 v2, k2b _ _ w v1 v1' v2, k1 Γ.p Γ.p cf.twoMu v1 v1' v2 v2,
      k1 Γ.t Γ.a cf.zero v1 v1' v2 v2, k1 Γ.a Γ.t cf.zero v1 v1' v2 v2]
  · simp only [rightSame, rvRightSame, staticPart]
    rw [k1 _ _ w v1 v1 v2 v2', k2 _ _ w v1 v2 v2', k1 Γ.p Γ.p cf.twoMu v1 v1 v2 v2',
      k1 Γ.t Γ.a cf.zero v1 v1 v2 v2', k1 Γ.a Γ.t cf.zero v1 v1 v2 v2']

/-- C45. Hence the integrands of the four classes of a bubble add up to the product of the complete
vertices with the pair propagator: nothing is dropped and nothing counted twice. -/
theorem c45_integrands {A : Type} [Ring A] (cf : Conf F) (rd : Reader R F A) (Γ Δ : Full R A) (b : Ch)
    (x y : Input F) (irrL irrR : Bool) (P : A)
    (h1 : 1 ≤ cf.maxDiag) (h3 : cf.maxDiag ≤ 3) (hs : cf.static = false)
    (hL : irrL = true → 2 ≤ cf.maxDiag) (hR : irrR = true → 2 ≤ cf.maxDiag)
    (htx : cf.tr b b x.f = x.f) (hty : cf.tr b b y.f = y.f) :
    ∃ l r : KC → A,
      (∀ k, integrandLeft cf rd Γ b irrL false k x = .ok (l k)) ∧
      (∀ k, integrandRight cf rd Δ b irrR false k y = .ok (r k)) ∧
      l .k1 * P * r .k1 + l .k2 * P * r .k2 + l .k2b * P * r .k2b + l .k3 * P * r .k3
        = value cf rd Γ b irrL x * P * value cf rd Δ b irrR y := by
  obtain ⟨s, d, hs1, hd1, he1⟩ := (c45_partial cf rd Γ b x irrL h1 h3 hs hL htx).1
  obtain ⟨s', d', hs2, hd2, he2⟩ := (c45_partial cf rd Δ b y irrR h1 h3 hs hR hty).2
  refine ⟨fun k => if k = .k1 ∨ k = .k2b then s else d, fun k => if k = .k3 ∨ k = .k2b then d' else s',
    fun k => ?_, fun k => ?_, ?_⟩
  · simp only [integrandLeft]; split_ifs <;> assumption
  · simp only [integrandRight]; split_ifs <;> assumption
  · rw [← he1, ← he2]
    simp
    rw [add_mul, add_mul, mul_add, mul_add]
    abel

/-- C45 fails for channel-irreducible vertices when only the first class is kept: the functions return a
variable that was never assigned. -/
theorem c45_irreducible_refuted (cf : Conf F) (rd : Reader R F V) (Γ : Full R V) (b : Ch) (x : Input F)
    (onlyR : Bool) (h : cf.maxDiag = 1) :
    leftDiff cf rd Γ b true onlyR x = .error .undefined ∧
      rightDiff cf rd Γ b true onlyR x = .error .undefined := by
  simp [leftDiff, rightDiff, h]

/-- C45 fails with static feedback: the two parts add up to the vertex plus the other channels' static
contribution, which is then counted twice. -/
theorem c45_static_refuted (cf : Conf F) (rd : Reader R F V) (Γ : Full R V) (b : Ch) (x : Input F)
    (h : cf.maxDiag = 1) (hs : cf.static = true) (htr : cf.tr b b x.f = x.f)
    (hne : staticPart cf rd Γ b x ≠ 0) :
    ∃ s d, leftSame cf rd Γ b false x = .ok s ∧ leftDiff cf rd Γ b false false x = .ok d ∧
      s + d = value cf rd Γ b false x + staticPart cf rd Γ b x ∧ s + d ≠ value cf rd Γ b false x := by
  obtain ⟨hl, -⟩ := rv_split cf rd (Γ.ch b) (Γ.crossing b) x (by omega) (by omega)
  have hv := c45_value cf rd Γ b x htr
  have hg : gammaRb cf rd Γ b x = irreducibleVertex cf rd Γ b x - Γ.irred x.iK x.iIn x.spin := by
    rw [← hv.2]; simp [value]
  have key : Γ.irred x.iK x.iIn x.spin + (rvLeftSame cf rd (Γ.ch b) (Γ.crossing b) x
        + staticPart cf rd Γ b x)
      + (rvLeftDiff cf rd (Γ.ch b) (Γ.crossing b) x + gammaRb cf rd Γ b x)
      = value cf rd Γ b false x + staticPart cf rd Γ b x := by
    rw [hv.1, hg, irreducibleVertex, show Input.mk x.iK x.spin x.iIn x.f = x from rfl, ← hl]
    abel
  refine ⟨_, _, by simp [leftSame, hs, h], by simp [leftDiff], key, ?_⟩
  rw [key]
  simpa using hne

/-! ### The bare interaction -/

theorem foldl_setvert (l : List Nat) (b : Bare V) (i : Nat) (v : V) (i' j' : Nat) :
    l.foldl (fun b j => setvert b i j v) b i' j' = if i' = i ∧ j' ∈ l then v else b i' j' := by
  induction l generalizing b with
  | nil => simp
  | cons a l ih =>
    simp only [List.foldl_cons, ih, setvert, List.mem_cons]
    by_cases h1 : i' = i <;> by_cases h2 : j' = a <;> by_cases h3 : j' ∈ l <;> simp [h1, h2, h3]

theorem foldl_odd (l : List Nat) (n : Nat) (b : Bare V) (v : V) (i' j' : Nat) :
    l.foldl (fun b i => (List.range n).foldl (fun b j => setvert b i j v) b) b i' j'
      = if i' ∈ l ∧ j' < n then v else b i' j' := by
  induction l generalizing b with
  | nil => simp
  | cons a l ih =>
    simp only [List.foldl_cons, ih, foldl_setvert, List.mem_cons, List.mem_range]
    by_cases h1 : i' = a <;> by_cases h2 : j' < n <;> by_cases h3 : i' ∈ l <;> simp [h1, h2, h3]

theorem initialize_keldysh (n : Nat) (b : Bare V) (v : V) (iK i : Nat) (hK : iK < 16) (hi : i < n) :
    initBare .keldysh n b v iK i = if secondIndices iK % 2 = 1 then v else b iK i := by
  have hodd : ∀ k < 16, (k ∈ Symmetries.oddKeldysh ↔ secondIndices k % 2 = 1) := by decide +kernel
  simp only [initBare, foldl_odd, hi, and_true]
  simp only [hodd iK hK]

/-- C46. After initialising a vertex with the interaction `u` (all other entries being zero) the bare part
has opposite values for the two spin configurations, is `u` respectively `-u` exactly on the components with
an odd number of second Keldysh indices and zero on the others; the spin sum vanishes, as does the value
for equal spins; other spin indices are refused. -/
theorem c46_bare (n iK i : Nat) (u : V) (hK : iK < 16) (hi : i < n) :
    ∃ v, irredVal .keldysh n (initBare .keldysh n (fun _ _ => 0) u) iK i 0 = .ok v ∧
      irredVal .keldysh n (initBare .keldysh n (fun _ _ => 0) u) iK i 1 = .ok (-v) ∧
      v + -v = 0 ∧
      irredVal .keldysh n (initBare .keldysh n (fun _ _ => 0) u) iK i 2 = .ok 0 ∧
      (secondIndices iK % 2 = 1 → v = u) ∧ (secondIndices iK % 2 = 0 → v = 0) ∧
      (∀ s, 3 ≤ s → irredVal .keldysh n (initBare .keldysh n (fun _ _ => 0) u) iK i s
        = .error .assertion) := by
  refine ⟨if secondIndices iK % 2 = 1 then u else 0, ?_, ?_, by abel, ?_, fun h => by simp [h],
    fun h => by simp [h], fun s hs => ?_⟩
  · simp only [irredVal, nComp, hK, hi, and_self, if_true, initialize_keldysh n _ u iK i hK hi]
  · simp only [irredVal, nComp, hK, hi, and_self, if_true, initialize_keldysh n _ u iK i hK hi]
  · simp only [irredVal, nComp, hK, hi, and_self, if_true]
  · obtain ⟨k, rfl⟩ : ∃ k, s = k + 3 := ⟨s - 3, by omega⟩
    simp only [irredVal, nComp, hK, hi, and_self, if_true]

/-- C46, re-initialising. The components with an odd number of second indices are replaced, the others are
left as they were: initialising twice is the same as initialising once with the second value, provided the
other components were zero. -/
theorem c46_reinitialise (n iK i : Nat) (b : Bare V) (u u' : V) (hK : iK < 16) (hi : i < n) :
    initBare .keldysh n (initBare .keldysh n b u) u' iK i = initBare .keldysh n b u' iK i := by
  rw [initialize_keldysh n _ u' iK i hK hi, initialize_keldysh n b u' iK i hK hi,
    initialize_keldysh n b u iK i hK hi]
  split_ifs <;> rfl

/-- C46, imaginary frequencies: the single component has opposite signs for the two spins. -/
theorem c46_matsubara (n i : Nat) (u : V) (hi : i < n) :
    irredVal .matsubara n (initBare .matsubara n (fun _ _ => 0) u) 0 i 0 = .ok u ∧
      irredVal .matsubara n (initBare .matsubara n (fun _ _ => 0) u) 0 i 1 = .ok (-u) := by
  simp [irredVal, nComp, hi, initBare, foldl_setvert]

end

theorem initialize_contour {V : Type} [AddCommGroup V] (n : Nat) (u : V) (iK i : Nat) (hi : i < n) :
    initBare .contour n (fun _ _ => 0) u iK i = if iK = 0 then u else if iK = 15 then -u else 0 := by
  have gen : ∀ (l : List Nat) (b : Bare V),
      l.foldl (fun b j => setvert (setvert b 0 j u) 15 j (-u)) b iK i
        = if i ∈ l then (if iK = 0 then u else if iK = 15 then -u else b iK i) else b iK i := by
    intro l
    induction l with
    | nil => simp
    | cons a l ih =>
      intro b
      simp only [List.foldl_cons, ih, setvert, List.mem_cons]
      by_cases h1 : i = a <;> by_cases h2 : i ∈ l <;> by_cases h3 : iK = 0 <;> by_cases h4 : iK = 15 <;>
        simp_all
  simp only [initBare, gen, List.mem_range, hi, if_true]

/-- One factor of the rotation from the contour to the Keldysh basis, without its `1/√2`: first index
difference, second index sum of the two branches. -/
def rot (α c : Nat) : Int := if α = 0 ∧ c = 1 then -1 else 1

/-- C46, contour basis. Rotating the bare vertex `2 u` given on the two branches of the contour (opposite
signs on forward and backward branch) to the Keldysh basis gives the bare vertex `u` of the Keldysh basis:
the initialisations in the two bases describe the same interaction. The four factors `1/√2` are `1/4`. -/
theorem c46_contour_rotation {K : Type} [Field K] [CharZero K] (n iK i : Nat) (u : K) (hK : iK < 16)
    (hi : i < n) :
    (1 / 4 : K) * ((List.range 16).map (fun c =>
        (rot (iK / 8 % 2) (c / 8 % 2) * rot (iK / 4 % 2) (c / 4 % 2) * rot (iK / 2 % 2) (c / 2 % 2)
          * rot (iK % 2) (c % 2) : Int) * initBare .contour n (fun _ _ => 0) (2 * u) c i)).sum
      = initBare .keldysh n (fun _ _ => 0) u iK i := by
  rw [initialize_keldysh n _ u iK i hK hi]
  simp only [initialize_contour n (2 * u) _ i hi]
  simp only [List.range, List.range.loop, List.map_cons, List.map_nil, List.sum_cons, List.sum_nil]
  interval_cases iK <;> simp [rot, secondIndices] <;> ring

/-! ### The hypotheses can be met -/

/-- A reader for a vertex whose classes are given by numbers: class `k` of object `q` is `q · (1, w, …)`. -/
def exReader : Reader ℚ ℚ ℚ := fun k q q' x =>
  match k with
  | .k1 => q * x.f.w + x.iK
  | .k2 => q * x.f.w * x.f.v1
  | .k2b => q' * x.f.v2
  | .k3 => q + q' * x.f.v1 * x.f.v2

def exConf (m : Nat) (s : Bool) : Conf ℚ := ⟨m, s, 0, 0, fun d b => Freqs.transf d (.ch b)⟩

def exFull : Full ℚ ℚ := ⟨fun _ _ _ => 1, 2, 3, 5⟩

example : Local exReader := by
  intro k q q' iK s i x y h
  cases k <;> obtain ⟨h1, h2⟩ := h <;> simp_all [exReader]

example : ∃ s d, leftSame (exConf 3 false) exReader exFull .a false ⟨3, 0, 0, ⟨1, 2, 4⟩⟩ = .ok s ∧
    leftDiff (exConf 3 false) exReader exFull .a false false ⟨3, 0, 0, ⟨1, 2, 4⟩⟩ = .ok d ∧
    s + d = value (exConf 3 false) exReader exFull .a false ⟨3, 0, 0, ⟨1, 2, 4⟩⟩ :=
  (c45_partial (exConf 3 false) exReader exFull .a ⟨3, 0, 0, ⟨1, 2, 4⟩⟩ false (by decide) (by decide) rfl
    (by simp) rfl).1

example : staticPart (exConf 1 true) exReader exFull .a ⟨3, 0, 0, ⟨1, 2, 4⟩⟩ ≠ 0 := by
  simp [staticPart, exReader, exConf, exFull]

example : initBare .keldysh 1 (fun _ _ => (0 : ℚ)) (-1/2) 7 0 = -1/2 ∧
    initBare .keldysh 1 (fun _ _ => (0 : ℚ)) (-1/2) 5 0 = 0 := by
  constructor <;> rw [initialize_keldysh _ _ _ _ _ (by norm_num) (by norm_num)] <;> norm_num [secondIndices]

end Verif.Vertex
