import Verif.Chains.Link
import Mathlib.Analysis.SpecialFunctions.JapaneseBracket
import Mathlib.Analysis.Calculus.Deriv.Basic

/-! Pairs of lines that decay. -/
namespace Verif.Chains
open Verif.Heredity MeasureTheory Filter Topology
open Verif.Freqs (Ch)

/-- A bound for the lines: it decays like the inverse frequency and its square has an integral of at most `I`. -/
structure Weight (I : ℝ) (m : ℝ → ℝ) : Prop where
  nonneg : ∀ x, 0 ≤ m x
  cont : Continuous m
  decay : ∃ C, ∀ x, m x ≤ C / (1 + |x|)
  mass : ∫ x, m x ^ 2 ≤ I

theorem japanese : Integrable fun x : ℝ => 1 / (1 + |x|) ^ 2 := by
  have := integrable_one_add_norm (E := ℝ) (μ := volume) (r := 2) (by simp)
  refine this.congr (Eventually.of_forall fun x => ?_)
  simp only [Real.norm_eq_abs]
  rw [Real.rpow_neg (by positivity), one_div]
  norm_num

section
variable {I : ℝ} {m : ℝ → ℝ} (W : Weight I m)
include W

theorem Weight.int : Integrable fun x => m x ^ 2 := by
  obtain ⟨C, hC⟩ := W.decay
  refine (japanese.const_mul (C ^ 2)).mono' (W.cont.pow 2).aestronglyMeasurable (Eventually.of_forall fun x => ?_)
  rw [Real.norm_eq_abs, abs_of_nonneg (by positivity)]
  have := pow_le_pow_left₀ (W.nonneg x) (hC x) 2
  calc m x ^ 2 ≤ (C / (1 + |x|)) ^ 2 := this
    _ = C ^ 2 * (1 / (1 + |x|) ^ 2) := by rw [div_pow]; ring

theorem Weight.I0 : 0 ≤ I := (integral_nonneg fun _ => sq_nonneg _).trans W.mass

/-- The weights at the energies of the two lines. -/
theorem Weight.lines (c : Ch) (w : ℝ) : Integrable (fun x => m (lines c w x).1 ^ 2) ∧ Integrable (fun x => m (lines c w x).2 ^ 2) ∧
    (∫ x, m (Chains.lines c w x).1 ^ 2) ≤ I ∧ (∫ x, m (Chains.lines c w x).2 ^ 2) ≤ I := by
  have i := W.int
  have t := W.mass
  have s : ∀ s : ℝ, Integrable (fun x => m (x - s) ^ 2) ∧ ∫ x, m (x - s) ^ 2 ≤ I := fun s =>
    ⟨i.comp_sub_right s, by rw [integral_sub_right_eq_self (fun x => m x ^ 2)]; exact t⟩
  have a : ∀ s : ℝ, Integrable (fun x => m (x + s) ^ 2) ∧ ∫ x, m (x + s) ^ 2 ≤ I := fun s =>
    ⟨i.comp_add_right s, by rw [integral_add_right_eq_self (fun x => m x ^ 2)]; exact t⟩
  have n : ∀ s : ℝ, Integrable (fun x => m (-x + s) ^ 2) ∧ ∫ x, m (-x + s) ^ 2 ≤ I := fun s => by
    simp only [neg_add_eq_sub]
    exact ⟨i.comp_sub_left s, by rw [integral_sub_left_eq_self (fun x => m x ^ 2)]; exact t⟩
  cases c <;> simp only [Chains.lines]
  · exact ⟨(s _).1, (a _).1, (s _).2, (a _).2⟩
  · exact ⟨(a _).1, (n _).1, (a _).2, (n _).2⟩
  · exact ⟨(s _).1, (a _).1, (s _).2, (a _).2⟩

end

theorem peetre (x s : ℝ) : 1 + |x| ≤ (1 + |s|) * (1 + |x - s|) := by
  have h : |x| ≤ |x - s| + |s| := by
    have := abs_add_le (x - s) s
    rwa [sub_add_cancel] at this
  nlinarith [mul_nonneg (abs_nonneg s) (abs_nonneg (x - s))]

theorem lines_peetre (c : Ch) (w x : ℝ) : 1 + |x| ≤ (1 + |w|) * (1 + |(lines c w x).1|) ∧ 1 + |x| ≤ (1 + |w|) * (1 + |(lines c w x).2|) := by
  have h2 : |w / 2| ≤ |w| := by rw [abs_div, abs_two]; linarith [abs_nonneg w]
  have g : ∀ (s y : ℝ), |s| = |w / 2| → y = x - s ∨ y = -(x - s) → 1 + |x| ≤ (1 + |w|) * (1 + |y|) := fun s y hs hy => by
    have p := peetre x s
    have e : |y| = |x - s| := by rcases hy with h | h <;> rw [h]; rw [abs_neg]
    rw [e]
    refine p.trans ?_
    rw [hs]
    gcongr
  cases c <;> simp only [lines]
  · exact ⟨g (w / 2) _ rfl (.inl rfl), g (-(w / 2)) _ (abs_neg _) (.inl (by ring))⟩
  · exact ⟨g (-(w / 2)) _ (abs_neg _) (.inl (by ring)), g (w / 2) _ rfl (.inr (by ring))⟩
  · exact ⟨g (w / 2) _ rfl (.inl rfl), g (-(w / 2)) _ (abs_neg _) (.inl (by ring))⟩

theorem lines_continuous (c : Ch) : Continuous fun q : ℝ × ℝ => lines c q.1 q.2 := by
  cases c <;> unfold lines <;> dsimp only <;> fun_prop

/-- Pairs of lines below a multiple of the weights at their energies. -/
structure Below (κ : ℝ) (m : ℝ → ℝ) (P : Pair) : Prop where
  cont : ∀ a b c d, Continuous fun q : ℝ × ℝ => P a b c d q.1 q.2
  le : ∀ a b c d y z, ‖P a b c d y z‖ ≤ κ * (m y * m z)

theorem pref_norm (c : Ch) : ‖pref c‖ = 1 / (2 * Real.pi) := by
  have := Real.pi_pos
  cases c <;> simp [pref, abs_of_pos this]

theorem Below.pairs {I κ : ℝ} {m : ℝ → ℝ} {P : Pair} (W : Weight I m) (κ0 : 0 ≤ κ) (h : Below κ m P) : Pairs (κ * I / (2 * Real.pi)) P := by
  intro c y
  have pi0 := Real.pi_pos
  have le : ∀ w x, ‖ker P c y w x‖ ≤ κ / (2 * Real.pi) * (m (lines c w x).1 * m (lines c w x).2) := fun w x => by
    rw [ker, norm_mul, pref_norm]
    refine (mul_le_mul_of_nonneg_left (h.le ..) (by positivity)).trans (le_of_eq ?_)
    ring
  refine ⟨?_, fun w => ?_, fun w => ?_⟩
  · exact continuous_const.mul ((h.cont _ _ _ _).comp (lines_continuous c))
  · obtain ⟨C, hC⟩ := W.decay
    have C0 : 0 ≤ C := by have := (W.nonneg 0).trans (hC 0); simpa using this
    refine ⟨fun x => κ / (2 * Real.pi) * (C * (2 + |w|)) ^ 2 * (1 / (1 + |x|) ^ 2), japanese.const_mul _, ?_⟩
    have near : ∀ᶠ w' in 𝓝 w, |w'| < 1 + |w| := continuous_abs.continuousAt.eventually_lt continuousAt_const (by linarith)
    filter_upwards [near] with w' hw' x
    obtain ⟨p1, p2⟩ := lines_peetre c w' x
    have k : ∀ e : ℝ, 1 + |x| ≤ (1 + |w'|) * (1 + |e|) → m e ≤ C * (2 + |w|) / (1 + |x|) := fun e he => by
      refine (hC e).trans ?_
      rw [div_le_div_iff₀ (by positivity) (by positivity)]
      calc C * (1 + |x|) ≤ C * ((1 + |w'|) * (1 + |e|)) := by gcongr
        _ ≤ C * ((2 + |w|) * (1 + |e|)) := mul_le_mul_of_nonneg_left (mul_le_mul_of_nonneg_right (by linarith) (by positivity)) C0
        _ = C * (2 + |w|) * (1 + |e|) := by ring
    refine (le w' x).trans ?_
    have k1 := k _ p1
    have k2 := k _ p2
    calc κ / (2 * Real.pi) * (m (lines c w' x).1 * m (lines c w' x).2)
        ≤ κ / (2 * Real.pi) * (C * (2 + |w|) / (1 + |x|) * (C * (2 + |w|) / (1 + |x|))) := by
          have := W.nonneg (lines c w' x).2
          gcongr
      _ = κ / (2 * Real.pi) * (C * (2 + |w|)) ^ 2 * (1 / (1 + |x|) ^ 2) := by field_simp
  · obtain ⟨i1, i2, t1, t2⟩ := W.lines c w
    have le' : ∀ x, ‖ker P c y w x‖ ≤ κ / (2 * Real.pi) * (1 / 2) * (m (lines c w x).1 ^ 2 + m (lines c w x).2 ^ 2) := fun x => by
      refine (le w x).trans ?_
      have := two_mul_le_add_sq (m (lines c w x).1) (m (lines c w x).2)
      have k0 : 0 ≤ κ / (2 * Real.pi) := by positivity
      have := mul_le_mul_of_nonneg_left this k0
      linarith
    refine (integral_mono_of_nonneg (Eventually.of_forall fun x => norm_nonneg _) ((i1.add i2).const_mul _) (Eventually.of_forall le')).trans ?_
    have e := integral_add i1 i2
    rw [integral_const_mul]
    simp only [Pi.add_apply]
    rw [e]
    refine (mul_le_mul_of_nonneg_left (add_le_add t1 t2) (by positivity)).trans (le_of_eq ?_)
    field_simp; ring

/-! ### The bubbles depend linearly on the pair -/

section
variable {N M : ℝ}

theorem one_kernel_add {K L : ℝ → ℝ → ℂ} (hK : Kernel N K) (hL : Kernel M L) {R : ℝ} (h : Kernel R fun w x => K w x + L w x) (a b : F3) :
    one (fun w x => K w x + L w x) a b = one K a b + one L a b := by
  ext q
  rw [BoundedContinuousFunction.add_apply, one_apply hK, one_apply hL, one_apply h, oneFun, oneFun, oneFun, ← integral_add (hK.integrand ..) (hL.integrand ..)]
  congr 1; funext x; ring

theorem one_kernel_smul {K : ℝ → ℝ → ℂ} (hK : Kernel N K) (r : ℝ) {R : ℝ} (h : Kernel R fun w x => r • K w x) (a b : F3) :
    one (fun w x => r • K w x) a b = r • one K a b := by
  ext q
  rw [BoundedContinuousFunction.smul_apply, one_apply hK, one_apply h, oneFun, oneFun, ← integral_smul]
  congr 1; funext x
  simp only [Complex.real_smul]; ring

theorem core_pair_add {P Q : Pair} (hP : Pairs N P) (hQ : Pairs M Q) {R : ℝ} (h : Pairs R (P + Q)) (c : Ch) (f g : Spinless) :
    core (P + Q) c f g = core P c f g + core Q c f g := by
  have e : ∀ y, ker (P + Q) c y = fun w x => ker P c y w x + ker Q c y w x := fun y => by
    funext w x; simp only [ker, Pi.add_apply]; ring
  funext α
  simp only [core, Pi.add_apply, ← Finset.sum_add_distrib]
  refine Finset.sum_congr rfl fun y _ => ?_
  have hy := h c y
  rw [e] at hy
  rw [e, one_kernel_add (hP c y) (hQ c y) hy, back_add]

theorem core_pair_smul {P : Pair} (hP : Pairs N P) (r : ℝ) {R : ℝ} (h : Pairs R (r • P)) (c : Ch) (f g : Spinless) :
    core (r • P) c f g = r • core P c f g := by
  have e : ∀ y, ker (r • P) c y = fun w x => r • ker P c y w x := fun y => by
    funext w x; simp only [ker, Pi.smul_apply, Complex.real_smul]; ring
  funext α
  simp only [core, Pi.smul_apply, Finset.smul_sum]
  refine Finset.sum_congr rfl fun y _ => ?_
  have hy := h c y
  rw [e] at hy
  rw [e, one_kernel_smul (hP c y) r hy, back_smul]

theorem bubbles_pair_add {P Q : Pair} (hP : Pairs N P) (hQ : Pairs M Q) {R : ℝ} (h : Pairs R (P + Q)) (r : Keldysh.Ch) :
    bubbles (P + Q) r = bubbles P r + bubbles Q r := by
  refine ContinuousLinearMap.ext fun A => ContinuousLinearMap.ext fun B => ?_
  rw [_root_.add_apply, _root_.add_apply, bubbles_apply h, bubbles_apply hP, bubbles_apply hQ]
  funext s
  cases r <;> cases s <;> simp only [chan, spinBubble, Four.add_apply, core_pair_add hP hQ h] <;> abel

theorem bubbles_pair_smul {P : Pair} (hP : Pairs N P) (x : ℝ) {R : ℝ} (h : Pairs R (x • P)) (r : Keldysh.Ch) :
    bubbles (x • P) r = x • bubbles P r := by
  refine ContinuousLinearMap.ext fun A => ContinuousLinearMap.ext fun B => ?_
  rw [_root_.smul_apply, _root_.smul_apply, bubbles_apply h, bubbles_apply hP]
  funext s
  cases r <;> cases s <;> simp only [chan, spinBubble, Four.smul_apply, core_pair_smul hP x h, smul_add]

end

end Verif.Chains
