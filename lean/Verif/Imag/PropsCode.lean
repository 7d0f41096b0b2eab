import Verif.Imag.PropsTotal
import Verif.Propagator.PropsMatsubara

/-! C157 for the computation of the code at finite temperature. -/
namespace Verif.Imag
open Verif.Symmetries
open Verif.Freqs (Ch Fr)

section
variable {R : Type} [CommRing R] [StarRing R]

/-- The half of an even frequency, rounded down to an even number. -/
def lower (w : ℤ) : ℤ := w / 2 / 2 * 2

theorem conserved {K : Type} [CommRing K] (lo : K → K) (c : Ch) (x : Fr K) : let ν := legFun (legsR lo c x)
    ν 0 + ν 1 = ν 2 + ν 3 := by
  cases c <;> simp [legFun, legsR]
  all_goals ring

theorem transfer_legs {K : Type} [CommRing K] (lo : K → K) (c : Ch) (x : Fr K) :
    transfer c (legFun (legsR lo c x)) = x.w := by
  cases c <;> simp [transfer, legFun, legsR]
  ring

/-- Energies of the lines. -/
def linesR (c : Ch) (lo hi vpp : ℤ) : ℤ × ℤ := if c = .p then (vpp + hi, lo - vpp) else (vpp - lo, vpp + hi)

theorem legs_split (c : Ch) (w v v' lo hi vpp : ℤ) (h : w = lo + hi) :
    let ν := legFun (legsR (fun _ => lo) c ⟨w, v, v'⟩)
    let l := linesR c lo hi vpp
    match c with
    | .a => legFun (legsR (fun _ => lo) c ⟨w, v, vpp⟩) = ![ν 0, l.2, l.1, ν 3] ∧
        legFun (legsR (fun _ => lo) c ⟨w, vpp, v'⟩) = ![l.1, ν 1, ν 2, l.2]
    | .p => legFun (legsR (fun _ => lo) c ⟨w, v, vpp⟩) = ![ν 0, ν 1, l.1, l.2] ∧
        legFun (legsR (fun _ => lo) c ⟨w, vpp, v'⟩) = ![l.1, l.2, ν 2, ν 3]
    | .t => legFun (legsR (fun _ => lo) c ⟨w, v, vpp⟩) = ![l.2, ν 1, l.1, ν 3] ∧
        legFun (legsR (fun _ => lo) c ⟨w, vpp, v'⟩) = ![ν 0, l.1, ν 2, l.2] := by
  subst h
  cases c <;> refine ⟨?_, ?_⟩ <;> funext i <;> fin_cases i <;> simp [legFun, legsR, linesR]

theorem scalar_inner (c : Ch) {spin : Nat} (hs : spin < 2) (V M : Vertex ℤ R) (P : ℤ → ℤ → R) (w v v' lo hi vpp : ℤ)
    (h : w = lo + hi) :
    SpinSum.scalar false .k3 (Pipeline.kch c) spin
      (side V false c (legFun (legsR (fun _ => lo) c ⟨w, v, vpp⟩)))
      (side M true c (legFun (legsR (fun _ => lo) c ⟨w, vpp, v'⟩)))
      (P (linesR c lo hi vpp).1 (linesR c lo hi vpp).2) =
    innerE V M P c (ext spin (legFun (legsR (fun _ => lo) c ⟨w, v, v'⟩))) (linesR c lo hi vpp).1
      (linesR c lo hi vpp).2 := by
  have hl := legs_split c w v v' lo hi vpp h
  generalize linesR c lo hi vpp = l at hl ⊢
  generalize legFun (legsR (fun _ => lo) c ⟨w, v, v'⟩) = ν at hl ⊢
  have hs' : spin = 0 ∨ spin = 1 := by omega
  cases c <;> obtain ⟨h1, h2⟩ := hl <;> rw [h1, h2] <;> rcases hs' with rfl | rfl <;>
    simp [SpinSum.scalar, SpinSum.summed, Pipeline.kch, side, innerE, inner, term, legVal, ext, Fintype.sum_prod_type]
  ring

/-- C157: at finite temperature the code computes, for every frequency triple with a bosonic first frequency, the bubble
with the finite sum over pairs of energies at the legs of that triple. -/
theorem c157_code (pos : Nat) (c : Ch) {spin : Nat} (hs : spin < 2) (V M : Vertex ℤ R) (P : ℤ → ℤ → R) (x : Fr ℤ)
    (hw : x.w % 2 = 0) :
    finiteT pos c spin V M P x =
      .ok ((bubble (finiteTotal pos) V M P).val false c spin k0 (legFun (legsR lower c x))) := by
  obtain ⟨w, v, v'⟩ := x
  dsimp only at hw
  obtain ⟨W, rfl⟩ : ∃ W, w = 2 * W := ⟨w / 2, by omega⟩
  have e2 : (2 * W).tdiv 2 = W := Int.mul_tdiv_cancel_left _ (by norm_num)
  have hlo : lower (2 * W) = W / 2 * 2 := by unfold lower; omega
  have hlegs : ∀ a b, legsR lower c ⟨2 * W, a, b⟩ = legsR (fun _ => W / 2 * 2) c ⟨2 * W, a, b⟩ := by
    intro a b; cases c <;> simp only [legsR, hlo]
  rw [val_pos _ _ _ _ (conserved lower c _), transfer_legs, hlegs]
  simp only [finiteT, MatSum.limits_eq, e2, Freqs.floor2b_eq, Freqs.ceil2b_eq, bind, Except.bind]
  rw [(MatSum.c96_sum _ _ _).1 (by have := abs_nonneg W; omega)]
  simp only [pure, Except.pure]
  congr 1
  have hsg : (if c = .t then -1 else 1 : R) = loopSign c := by cases c <;> rfl
  rw [hsg]
  congr 1
  simp only [if_false, Bool.false_eq_true]
  have hsum : ∀ n : ℤ, SpinSum.scalar false .k3 (Pipeline.kch c) spin
      (side V false c (legFun (legsR (fun _ => W / 2 * 2) c ⟨2 * W, v, 2 * n + 1⟩)))
      (side M true c (legFun (legsR (fun _ => W / 2 * 2) c ⟨2 * W, 2 * n + 1, v'⟩)))
      (P (linesR c (W / 2 * 2) (-(-W / 2) * 2) (2 * n + 1)).1 (linesR c (W / 2 * 2) (-(-W / 2) * 2) (2 * n + 1)).2) =
    innerE V M P c (ext spin (legFun (legsR (fun _ => W / 2 * 2) c ⟨2 * W, v, v'⟩)))
      (linesR c (W / 2 * 2) (-(-W / 2) * 2) (2 * n + 1)).1 (linesR c (W / 2 * 2) (-(-W / 2) * 2) (2 * n + 1)).2 :=
    fun n => scalar_inner c hs V M P (2 * W) v v' _ _ _ (by omega)
  refine (Finset.sum_congr rfl fun n _ => hsum n).trans ?_
  unfold finiteTotal
  have hW : |W| = W ∧ 0 ≤ W ∨ |W| = -W ∧ W ≤ 0 := by
    rcases le_total 0 W with h | h
    · exact .inl ⟨abs_of_nonneg h, h⟩
    · exact .inr ⟨abs_of_nonpos h, h⟩
  generalize |W| = A at hW
  refine Finset.sum_bij' (fun n _ => (linesR c (W / 2 * 2) (-(-W / 2) * 2) (2 * n + 1)).1)
    (fun y _ => if c = .p then (y - (-(-W / 2) * 2) - 1) / 2 else (y + W / 2 * 2 - 1) / 2) ?_ ?_ ?_ ?_ ?_
  · intro n hn
    rw [Finset.mem_Icc] at hn
    simp only [window, Finset.mem_filter, Finset.mem_Icc]
    cases c <;> simp only [linesR, reduceCtorEq, if_false, if_true] <;> omega
  · intro y hy
    simp only [window, Finset.mem_filter, Finset.mem_Icc] at hy
    rw [Finset.mem_Icc]
    cases c <;> simp only [reduceCtorEq, if_false, if_true] at hy ⊢ <;> omega
  · intro n hn
    cases c <;> simp only [linesR, reduceCtorEq, if_false, if_true] <;> omega
  · intro y hy
    simp only [window, Finset.mem_filter, Finset.mem_Icc] at hy
    cases c <;> simp only [linesR, reduceCtorEq, if_false, if_true] at hy ⊢ <;> omega
  · intro n hn
    congr 1
    cases c <;> simp only [linesR, partner, reduceCtorEq, if_false, if_true] <;> omega

/-- C157: for symmetric vertices and a symmetric pair of propagators, the values computed at finite temperature are those
of a vertex with the crossing, conjugation and time-reversal symmetries, in every channel, for both spin components and at
all frequencies. The sums are finite: the symmetries do not depend on their length. -/
theorem c157_computed (pos : Nat) {ph : Bool} {V M : Vertex ℤ R} {P : ℤ → ℤ → R} (hV : Sym ⟨false, ph, false⟩ V)
    (hM : Sym ⟨false, ph, false⟩ M) (hP : GoodPair P) :
    ∃ B : Vertex ℤ R, Sym ⟨false, ph, false⟩ B ∧ ∀ c spin (x : Fr ℤ), spin < 2 → x.w % 2 = 0 →
      finiteT pos c spin V M P x = .ok (B.val false c spin k0 (legFun (legsR lower c x))) :=
  ⟨_, c157_symmetric (c157_finite pos) hV hM hP, fun c _ x hs hw => c157_code pos c hs V M P x hw⟩

/-- The frequencies of the time-reversed legs: for an odd half of the bosonic frequency, the fermionic ones are shifted. -/
def reversed (x : Fr ℤ) : Fr ℤ := ⟨-x.w, -x.v1 - 2 * (x.w / 2 % 2), -x.v2 - 2 * (x.w / 2 % 2)⟩

/-- C157: values at opposite frequencies are complex conjugates. -/
theorem c157_reversal (pos : Nat) {ph : Bool} {V M : Vertex ℤ R} {P : ℤ → ℤ → R} (hV : Sym ⟨false, ph, false⟩ V)
    (hM : Sym ⟨false, ph, false⟩ M) (hP : GoodPair P) (c : Ch) {spin : Nat} (hs : spin < 2) (x : Fr ℤ)
    (hw : x.w % 2 = 0) :
    ∃ r, finiteT pos c spin V M P x = .ok r ∧ finiteT pos c spin V M P (reversed x) = .ok (star r) := by
  have hB := c157_symmetric (c157_finite pos) hV hM hP
  refine ⟨_, c157_code pos c hs V M P x hw, ?_⟩
  rw [c157_code pos c hs V M P (reversed x) (by simp only [reversed]; omega), hB.tr rfl _ _ _ _ _ hs]
  congr 3
  funext i
  have hneg : ∀ i, -legFun (legsR lower c (reversed x)) i = legFun (legsR lower c x) i := by
    intro i
    cases c <;> fin_cases i <;> simp [legFun, legsR, reversed, lower] <;> omega
  exact hneg i

end

/-- C157: the propagators of the code on the imaginary axis give such a pair, for every regulator and temperature, if the
self-energy at the opposite frequency is the complex conjugate. -/
theorem c157_propagators (diff : Bool) (T c : ℝ) (p : Propagator.Par) (Se : ℤ → ℂ) (hS : ∀ v, star (Se v) = Se (-v)) :
    let at' := fun v : ℤ => ({ p with v := v * (Real.pi * T) } : Propagator.Par)
    GoodPair (pairOf false diff (fun v => Propagator.gM2 false c (at' v) (Se v))
      (fun v => Propagator.sM2 false c (at' v) (Se v))) ∧
    GoodPair (pairOf false diff (fun v => Propagator.gM3 false c (at' v) (Se v))
      (fun v => Propagator.sM3 false c (at' v) (Se v))) ∧
    GoodPair (pairOf false diff (fun v => Propagator.gM4 false c (at' v) (Se v))
      (fun v => Propagator.sM4 false c (at' v) (Se v))) := by
  intro at'
  have ho : ∀ v, at' (-v) = (at' v).opposite := by
    intro v; simp only [at', Propagator.Par.opposite]; push_cast; rw [neg_mul]
  have hc := fun v => Propagator.c91_conjugation c (at' v) (Se v)
  refine ⟨c157_pair _ _ _ _ (fun v => ?_) (fun v => ?_), c157_pair _ _ _ _ (fun v => ?_) (fun v => ?_),
    c157_pair _ _ _ _ (fun v => ?_) (fun v => ?_)⟩ <;>
    simp only [Bool.false_eq_true, if_false, one_mul, ho, ← hS, Complex.star_def]
  · exact (hc v).1.symm
  · exact (hc v).2.1.symm
  · exact (hc v).2.2.1.symm
  · exact (hc v).2.2.2.1.symm
  · exact (hc v).2.2.2.2.1.symm
  · exact (hc v).2.2.2.2.2.symm

/-- The bare vertex. -/
def bare (u : ℂ) : Vertex ℤ ℂ where
  val _ _ s _ _ := if s = 0 then u else -u

/-- The bare vertex with a real interaction has the symmetries, and so the theorems apply to the bubbles that start the
flow. -/
theorem bare_sym (u : ℝ) : Sym ⟨false, false, false⟩ (bare u) where
  crossIn h c s α ν hs := by
    have : s = 0 ∨ s = 1 := by omega
    rcases this with rfl | rfl <;> simp [bare]
  crossOut h c s α ν hs := by
    have : s = 0 ∨ s = 1 := by omega
    rcases this with rfl | rfl <;> simp [bare]
  conjK h := by cases h
  conjM _ h c s α ν hs := by
    have : s = 0 ∨ s = 1 := by omega
    rcases this with rfl | rfl <;> simp [bare]
  ph h := by cases h
  tr _ h c s α ν hs := by
    have : s = 0 ∨ s = 1 := by omega
    rcases this with rfl | rfl <;> simp [bare]
  real _ h := by cases h

/-- A bubble of bare vertices at the transferred frequency 6, and its reversal. -/
example : ∃ r, finiteT 1 .a 0 (bare 1) (bare 1) (fun _ _ => 1) ⟨6, 1, 3⟩ = .ok r ∧
    finiteT 1 .a 0 (bare 1) (bare 1) (fun _ _ => 1) ⟨-6, -3, -5⟩ = .ok (star r) := by
  have h : Sym ⟨false, false, false⟩ (bare 1) := by simpa using bare_sym 1
  exact c157_reversal 1 h h ⟨fun _ _ => rfl, fun _ _ => by simp⟩ .a (by norm_num) ⟨6, 1, 3⟩ (by norm_num)

/-- The value is not zero: five pairs of energies are summed. -/
example : finiteT 1 .a 0 (bare 1) (bare 1) (fun _ _ => 1) ⟨6, 1, 3⟩ = .ok 5 := by
  have h1 : MatSum.limits 1 6 = .ok (-3, 1) := by simpa using MatSum.limits_eq 1 3
  simp only [finiteT, h1, bind, Except.bind, Freqs.floor2b_eq, Freqs.ceil2b_eq]
  norm_num [MatSum.matsubaraSum, SpinSum.scalar, SpinSum.summed, Pipeline.kch, side, bare, pure, Except.pure]
  rw [show Int.toNat 5 = 5 from rfl]
  have e1 : ¬ (Ch.a = Ch.t) := by decide
  have e2 : ¬ (Keldysh.Ch.a = Keldysh.Ch.t) := by decide
  simp only [List.range_succ, e1, e2, if_false]
  norm_num

end Verif.Imag
