import Mathlib.MeasureTheory.Integral.Prod
import Mathlib.MeasureTheory.Integral.DominatedConvergence
import Mathlib.MeasureTheory.Measure.Lebesgue.Basic
import Mathlib.Analysis.Complex.Basic
import Mathlib.Topology.ContinuousMap.Bounded.Normed
import Mathlib.Analysis.Normed.Operator.Bilinear

/-! Two functions of three frequencies connected by a pair of lines: the integral over the frequency of the lines, as a
bilinear map of bounded continuous functions. -/
namespace Verif.Chains
open MeasureTheory Filter Topology BoundedContinuousFunction

/-- Bounded continuous functions of the transfer frequency and two further ones. -/
abbrev F3 : Type := BoundedContinuousFunction (ℝ × ℝ × ℝ) ℂ

/-- A pair of lines, by transfer frequency and integration frequency, that can be integrated: it is continuous and
integrable, locally uniformly in the transfer frequency, and the integrals are bounded. -/
structure Kernel (N : ℝ) (K : ℝ → ℝ → ℂ) : Prop where
  cont : Continuous fun q : ℝ × ℝ => K q.1 q.2
  dom : ∀ w, ∃ g : ℝ → ℝ, Integrable g ∧ ∀ᶠ w' in 𝓝 w, ∀ x, ‖K w' x‖ ≤ g x
  bound : ∀ w, ∫ x, ‖K w x‖ ≤ N

variable {N M : ℝ} {K L : ℝ → ℝ → ℂ}

theorem Kernel.contw (h : Kernel N K) (w : ℝ) : Continuous (K w) := h.cont.comp (Continuous.prodMk continuous_const continuous_id)

theorem Kernel.int (h : Kernel N K) (w : ℝ) : Integrable (K w) := by
  obtain ⟨g, hg, he⟩ := h.dom w
  exact hg.mono' (h.contw w).aestronglyMeasurable (Eventually.of_forall he.self_of_nhds)

theorem Kernel.nonneg (h : Kernel N K) : 0 ≤ N := (integral_nonneg fun _ => norm_nonneg _).trans (h.bound 0)

theorem Kernel.integrand (h : Kernel N K) (a b : F3) (w v v' : ℝ) : Integrable fun x => a (w, v, x) * K w x * b (w, x, v') := by
  have i := ((h.int w).norm.const_mul (‖a‖ * ‖b‖))
  refine i.mono' ?_ (Eventually.of_forall fun x => ?_)
  · refine Continuous.aestronglyMeasurable ?_
    exact ((a.continuous.comp (by fun_prop)).mul (h.contw w)).mul (b.continuous.comp (by fun_prop))
  · rw [norm_mul, norm_mul]
    have := a.norm_coe_le_norm (w, v, x)
    have := b.norm_coe_le_norm (w, x, v')
    calc ‖a (w, v, x)‖ * ‖K w x‖ * ‖b (w, x, v')‖ ≤ ‖a‖ * ‖K w x‖ * ‖b‖ := by gcongr
      _ = ‖a‖ * ‖b‖ * ‖K w x‖ := by ring

/-- The integral over the frequency of the lines. -/
noncomputable def oneFun (K : ℝ → ℝ → ℂ) (a b : F3) (q : ℝ × ℝ × ℝ) : ℂ :=
  ∫ x, a (q.1, q.2.1, x) * K q.1 x * b (q.1, x, q.2.2)

theorem oneFun_le (h : Kernel N K) (a b : F3) (q : ℝ × ℝ × ℝ) : ‖oneFun K a b q‖ ≤ N * ‖a‖ * ‖b‖ := by
  have i := ((h.int q.1).norm.const_mul (‖a‖ * ‖b‖))
  refine (norm_integral_le_of_norm_le i (Eventually.of_forall fun x => ?_)).trans ?_
  · rw [norm_mul, norm_mul]
    have := a.norm_coe_le_norm (q.1, q.2.1, x)
    have := b.norm_coe_le_norm (q.1, x, q.2.2)
    calc ‖a (q.1, q.2.1, x)‖ * ‖K q.1 x‖ * ‖b (q.1, x, q.2.2)‖ ≤ ‖a‖ * ‖K q.1 x‖ * ‖b‖ := by gcongr
      _ = ‖a‖ * ‖b‖ * ‖K q.1 x‖ := by ring
  · rw [integral_const_mul]
    have := mul_le_mul_of_nonneg_left (h.bound q.1) (by positivity : 0 ≤ ‖a‖ * ‖b‖)
    linarith

theorem oneFun_continuous (h : Kernel N K) (a b : F3) : Continuous (oneFun K a b) := by
  refine continuous_iff_continuousAt.2 fun q => ?_
  obtain ⟨g, hg, he⟩ := h.dom q.1
  refine continuousAt_of_dominated (bound := fun x => ‖a‖ * ‖b‖ * g x) (Eventually.of_forall fun q' => ?_) ?_ (hg.const_mul _)
    (Eventually.of_forall fun x => ?_)
  · exact (h.integrand a b q'.1 q'.2.1 q'.2.2).aestronglyMeasurable
  · filter_upwards [continuous_fst.continuousAt.eventually he] with q' hq'
    refine Eventually.of_forall fun x => ?_
    rw [norm_mul, norm_mul]
    have := a.norm_coe_le_norm (q'.1, q'.2.1, x)
    have := b.norm_coe_le_norm (q'.1, x, q'.2.2)
    have := hq' x
    calc ‖a (q'.1, q'.2.1, x)‖ * ‖K q'.1 x‖ * ‖b (q'.1, x, q'.2.2)‖ ≤ ‖a‖ * g x * ‖b‖ := by
          have : 0 ≤ g x := (norm_nonneg _).trans this
          gcongr
      _ = ‖a‖ * ‖b‖ * g x := by ring
  · refine Continuous.continuousAt ?_
    refine Continuous.mul (Continuous.mul (a.continuous.comp (by fun_prop)) ?_) (b.continuous.comp (by fun_prop))
    exact h.cont.comp (f := fun q' : ℝ × ℝ × ℝ => (q'.1, x)) (by fun_prop)

/-- The same as a bounded continuous function; zero for lines that cannot be integrated. -/
noncomputable def one (K : ℝ → ℝ → ℂ) (a b : F3) : F3 :=
  open Classical in
  if h : ∃ N, Kernel N K then BoundedContinuousFunction.ofNormedAddCommGroup (oneFun K a b) (oneFun_continuous h.choose_spec a b)
    (h.choose * ‖a‖ * ‖b‖) (oneFun_le h.choose_spec a b) else 0

theorem one_apply (h : Kernel N K) (a b : F3) (q : ℝ × ℝ × ℝ) : one K a b q = oneFun K a b q := by
  rw [one, dif_pos ⟨N, h⟩]; rfl

theorem one_norm (h : Kernel N K) (a b : F3) : ‖one K a b‖ ≤ N * ‖a‖ * ‖b‖ := by
  refine (BoundedContinuousFunction.norm_le ?_).2 fun q => ?_
  · have := h.nonneg
    positivity
  · rw [one_apply h]; exact oneFun_le h a b q

theorem one_add_left (h : Kernel N K) (a a' b : F3) : one K (a + a') b = one K a b + one K a' b := by
  ext q
  rw [BoundedContinuousFunction.add_apply, one_apply h, one_apply h, one_apply h, oneFun, oneFun, oneFun, ← integral_add (h.integrand ..) (h.integrand ..)]
  congr 1; funext x
  rw [BoundedContinuousFunction.add_apply]; ring

theorem one_add_right (h : Kernel N K) (a b b' : F3) : one K a (b + b') = one K a b + one K a b' := by
  ext q
  rw [BoundedContinuousFunction.add_apply, one_apply h, one_apply h, one_apply h, oneFun, oneFun, oneFun, ← integral_add (h.integrand ..) (h.integrand ..)]
  congr 1; funext x
  rw [BoundedContinuousFunction.add_apply]; ring

theorem one_smul_left (h : Kernel N K) (r : ℝ) (a b : F3) : one K (r • a) b = r • one K a b := by
  ext q
  rw [BoundedContinuousFunction.smul_apply, one_apply h, one_apply h, oneFun, oneFun, ← integral_smul]
  congr 1; funext x
  rw [BoundedContinuousFunction.smul_apply]
  simp only [Complex.real_smul]; ring

theorem one_smul_right (h : Kernel N K) (r : ℝ) (a b : F3) : one K a (r • b) = r • one K a b := by
  ext q
  rw [BoundedContinuousFunction.smul_apply, one_apply h, one_apply h, oneFun, oneFun, ← integral_smul]
  congr 1; funext x
  rw [BoundedContinuousFunction.smul_apply]
  simp only [Complex.real_smul]; ring

/-- Two pairs of lines in a row: the integrals can be done in either order. -/
theorem one_assoc (h : Kernel N K) (h' : Kernel M L) (a b c : F3) : one K (one L a b) c = one L a (one K b c) := by
  ext ⟨w, v, v'⟩
  rw [one_apply h, one_apply h', oneFun, oneFun]
  simp only [one_apply h, one_apply h', oneFun]
  have e1 : ∀ x, (∫ y, a (w, v, y) * L w y * b (w, y, x)) * K w x * c (w, x, v') =
      ∫ y, a (w, v, y) * L w y * b (w, y, x) * (K w x * c (w, x, v')) := fun x => by
    rw [mul_assoc, ← integral_mul_const]
  have e2 : ∀ y, a (w, v, y) * L w y * (∫ x, b (w, y, x) * K w x * c (w, x, v')) =
      ∫ x, a (w, v, y) * L w y * b (w, y, x) * (K w x * c (w, x, v')) := fun y => by
    rw [← integral_const_mul]
    congr 1; funext x; ring
  simp only [e1, e2]
  refine integral_integral_swap (f := fun x y => a (w, v, y) * L w y * b (w, y, x) * (K w x * c (w, x, v'))) ?_
  have i := (((h.int w).norm.mul_prod (h'.int w).norm).const_mul (‖a‖ * ‖b‖ * ‖c‖))
  refine i.mono' ?_ (Eventually.of_forall fun q => ?_)
  · refine Continuous.aestronglyMeasurable ?_
    have k := h.contw w
    have l := h'.contw w
    exact (((a.continuous.comp (f := fun q : ℝ × ℝ => (w, v, q.2)) (by fun_prop)).mul (l.comp continuous_snd)).mul
      (b.continuous.comp (f := fun q : ℝ × ℝ => (w, q.2, q.1)) (by fun_prop))).mul
      ((k.comp continuous_fst).mul (c.continuous.comp (f := fun q : ℝ × ℝ => (w, q.1, v')) (by fun_prop)))
  · obtain ⟨x, y⟩ := q
    simp only [Function.uncurry_apply_pair, norm_mul]
    have := a.norm_coe_le_norm (w, v, y)
    have := b.norm_coe_le_norm (w, y, x)
    have := c.norm_coe_le_norm (w, x, v')
    calc ‖a (w, v, y)‖ * ‖L w y‖ * ‖b (w, y, x)‖ * (‖K w x‖ * ‖c (w, x, v')‖) ≤ ‖a‖ * ‖L w y‖ * ‖b‖ * (‖K w x‖ * ‖c‖) := by gcongr
      _ = ‖a‖ * ‖b‖ * ‖c‖ * (‖K w x‖ * ‖L w y‖) := by ring

end Verif.Chains
