import Verif.Propagator.Lemmas
import Mathlib.Analysis.SpecialFunctions.Exp
import Mathlib.LinearAlgebra.Matrix.Notation
import Mathlib.Tactic.NormNum
import Mathlib.Tactic.Positivity

/-! C76: distribution functions; C77: component matrices. -/
namespace Verif.Propagator
open Complex

theorem tanh_eq (x : ℝ) : Real.tanh x = 1 - 2 / (Real.exp (2 * x) + 1) := by
  rw [Real.tanh_eq_sinh_div_cosh, Real.sinh_eq, Real.cosh_eq]
  have h1 : Real.exp (2 * x) = Real.exp x * Real.exp x := by rw [← Real.exp_add]; ring_nf
  have h2 : Real.exp (-x) = (Real.exp x)⁻¹ := Real.exp_neg x
  have h3 := Real.exp_pos x
  rw [h1, h2]
  field_simp
  ring

/-- The occupation is the Fermi function `1/(exp((v−μ)/T)+1)`. -/
theorem fermiDistr_eq (v mu T : ℝ) (hT : T ≠ 0) :
    fermiDistr v mu T = 1 / (Real.exp ((v - mu) / T) + 1) := by
  rw [fermiDistr, tanh_eq]
  have : 2 * ((v - mu) / (2 * T)) = (v - mu) / T := by field_simp
  rw [this]
  have := Real.exp_pos ((v - mu) / T)
  field_simp; norm_num

/-- **C76** (finite temperature).  -/
theorem c76_distribution (v mu T V : ℝ) (hT : 0 < T) :
    (0 < fermiDistr v mu T ∧ fermiDistr v mu T < 1) ∧
    (∀ w, v < w → fermiDistr w mu T < fermiDistr v mu T) ∧
    fermiDistr mu mu T = 1 / 2 ∧
    (∀ x, fermiDistr (mu + x) mu T + fermiDistr (mu - x) mu T = 1) ∧
    fermiFac v mu T = 1 - 2 * fermiDistr v mu T ∧
    fermiDistribution v T = fermiDistr v 0 T ∧
    (∀ b, effDistr b v T mu 0 = fermiDistr v mu T ∧ effFac b v T mu 0 = fermiFac v mu T) ∧
    (effFac false v T mu V = 1 - 2 * effDistr false v T mu V ∧
      effFac true v T mu V = 1 - 2 * effDistr true v T mu V) := by
  have hT' := hT.ne'
  refine ⟨?_, ?_, ?_, ?_, ?_, ?_, ?_, ?_⟩
  · rw [fermiDistr_eq _ _ _ hT']
    have := Real.exp_pos ((v - mu) / T)
    exact ⟨by positivity, by rw [div_lt_one (by positivity)]; linarith⟩
  · intro w hw
    rw [fermiDistr_eq _ _ _ hT', fermiDistr_eq _ _ _ hT']
    have h1 := Real.exp_pos ((v - mu) / T)
    have h2 : Real.exp ((v - mu) / T) < Real.exp ((w - mu) / T) :=
      Real.exp_lt_exp.mpr (div_lt_div_of_pos_right (by linarith) hT)
    exact one_div_lt_one_div_of_lt (by linarith) (by linarith)
  · rw [fermiDistr]; simp; norm_num
  · intro x
    rw [fermiDistr, fermiDistr]
    have : (mu - x - mu) / (2 * T) = -((mu + x - mu) / (2 * T)) := by ring
    rw [this, Real.tanh_neg]; ring
  · rw [fermiFac, fermiDistr]; ring
  · rw [fermiDistr_eq _ _ _ hT', fermiDistribution, sub_zero]
  · intro b
    cases b
    · simp only [effDistr, effFac, fermiDistr, fermiFac, Bool.false_eq_true, if_false]
      simp only [zero_div, add_zero, sub_zero]
      constructor <;> ring
    · simp [effDistr, effFac]
  · simp only [effDistr, effFac, fermiDistr, fermiFac, Bool.false_eq_true, if_false, if_true]
    constructor <;> ring

/-- **C76** (zero temperature, away from the chemical potential): the step functions agree and are the
limit values. -/
theorem c76_zero_temperature_partial (v mu : ℝ) (hv : v ≠ mu) :
    fermiFac0 v mu = 1 - 2 * fermiDistr0 v mu ∧ (fermiDistr0 v mu = 0 ∨ fermiDistr0 v mu = 1) ∧
    (fermiDistr0 v mu = 1 ↔ v < mu) ∧ fermiDistribution0 (v - mu) = fermiDistr0 v mu ∧
    (∀ b, effFac0 b v mu 0 = fermiFac0 v mu) := by
  have key : ∀ b, fermiFac0 v mu = 1 - 2 * fermiDistr0 v mu → effFac0 b v mu 0 = fermiFac0 v mu := by
    intro b h
    cases b
    · simp only [effFac0, Bool.false_eq_true, if_false, zero_div, add_zero, sub_zero, h]; ring
    · simp [effFac0]
  rcases lt_or_gt_of_ne hv with h | h
  · have h1 : v - mu < 0 := by linarith
    have hf : fermiDistr0 v mu = 1 := if_pos h1
    have hg : fermiFac0 v mu = -1 := by
      unfold fermiFac0 sgn; rw [if_neg (by linarith), if_pos h1.le]; norm_num
    have e : fermiFac0 v mu = 1 - 2 * fermiDistr0 v mu := by rw [hf, hg]; norm_num
    refine ⟨e, Or.inr hf, ⟨fun _ => h, fun _ => hf⟩, ?_, fun b => key b e⟩
    rw [hf, fermiDistribution0, if_neg (by linarith), if_neg h1.ne]
  · have h1 : 0 < v - mu := by linarith
    have hf : fermiDistr0 v mu = 0 := if_neg (by linarith)
    have hg : fermiFac0 v mu = 1 := by
      unfold fermiFac0 sgn; rw [if_pos h1.le, if_neg (by linarith)]; norm_num
    have e : fermiFac0 v mu = 1 - 2 * fermiDistr0 v mu := by rw [hf, hg]; norm_num
    refine ⟨e, Or.inl hf, ⟨fun h' => by rw [hf] at h'; norm_num at h', fun h' => by linarith⟩, ?_,
      fun b => key b e⟩
    rw [hf, fermiDistribution0, if_pos h1]

/-- **C76** is false at zero temperature exactly at the chemical potential: the occupation used by the
propagators is 0 there, while the distribution factor says one half, and so does the second
implementation; at zero bias the non-equilibrium factor differs from the equilibrium one. -/
theorem c76_zero_temperature_refuted :
    ∃ v mu : ℝ, fermiFac0 v mu ≠ 1 - 2 * fermiDistr0 v mu ∧ fermiDistribution0 (v - mu) ≠ fermiDistr0 v mu ∧
      effFac0 false v mu 0 ≠ effFac0 true v mu 0 := by
  refine ⟨0, 0, ?_, ?_, ?_⟩ <;> norm_num [fermiFac0, sgn, fermiDistr0, fermiDistribution0, effFac0]

/-- **C77** (Dyson's equation).  With the hybridisation regulator and the general Keldysh formula, the
matrix of components is the inverse of the matrix built from the regulated inverse free propagator and
the self-energy (retarded, advanced, Keldysh parts). -/
theorem c77_dyson (F : ℝ) (p : Par) (s : SE) (hne : g0Rinv p + I * p.Lam * 0.5 - s.R ≠ 0) :
    let inv : ℂ := g0Rinv p + I * p.Lam * 0.5 - s.R
    let K0 : ℂ := -(I * ((p.Gam + p.Lam) * F : ℝ))
    (Matrix.of (keldyshMatrix (gR .hyb p s) (gKgen .hyb F p s)) : Matrix (Fin 2) (Fin 2) ℂ)
      * !![-(K0 + s.K), inv; (starRingEnd ℂ) inv, 0] = 1 := by
  intro inv K0
  have hinv : inv ≠ 0 := hne
  have hc : (starRingEnd ℂ) inv ≠ 0 := by simpa using hne
  have hG : gR .hyb p s = 1 / inv := rfl
  have hA : (starRingEnd ℂ) (gR .hyb p s) = 1 / (starRingEnd ℂ) inv := by rw [hG]; simp
  have hK : gKgen .hyb F p s = (1 / inv) * (1 / (starRingEnd ℂ) inv) * (K0 + s.K) := by
    unfold gKgen
    rw [← mul_conj, hA, hG]
    simp only [K0]; ring
  have e : (Matrix.of (keldyshMatrix (gR .hyb p s) (gKgen .hyb F p s)) : Matrix (Fin 2) (Fin 2) ℂ) =
      !![0, 1 / (starRingEnd ℂ) inv; 1 / inv, (1 / inv) * (1 / (starRingEnd ℂ) inv) * (K0 + s.K)] := by
    rw [hK, keldyshMatrix, hA, hG]
  rw [e, Matrix.mul_fin_two, Matrix.one_fin_two]
  congr 1
  funext i j
  fin_cases i <;> fin_cases j <;> simp <;> field_simp <;> ring

/-- **C77** (bases).  The contour matrix is the Keldysh matrix rotated with `(1, -1; 1, 1)/√2` (written
without the root), its components obey the causality identity `G⁻⁻ + G⁺⁺ = G⁻⁺ + G⁺⁻`, and the retarded,
advanced and Keldysh components are recovered. -/
theorem c77_bases (R K : ℂ) :
    (2 : ℂ) • (Matrix.of (contourMatrix R K) : Matrix (Fin 2) (Fin 2) ℂ) =
        !![1, 1; -1, 1] * Matrix.of (keldyshMatrix R K) * !![1, -1; 1, 1] ∧
    contourMatrix R K 0 0 + contourMatrix R K 1 1 = contourMatrix R K 0 1 + contourMatrix R K 1 0 ∧
    contourMatrix R K 0 0 - contourMatrix R K 0 1 = R ∧
    contourMatrix R K 0 0 - contourMatrix R K 1 0 = (starRingEnd ℂ) R ∧
    contourMatrix R K 0 0 + contourMatrix R K 1 1 = K := by
  refine ⟨?_, ?_, ?_, ?_, ?_⟩
  · have e : (Matrix.of (keldyshMatrix R K) : Matrix (Fin 2) (Fin 2) ℂ) = !![0, (starRingEnd ℂ) R; R, K] := rfl
    rw [e, Matrix.mul_fin_two, Matrix.mul_fin_two]
    ext i j
    fin_cases i <;> fin_cases j <;> simp [contourMatrix] <;> norm_num <;> ring
  all_goals
    simp [contourMatrix]
    norm_num
    try ring

/-- **C77** (extended propagator): type `k` is `s` plus `e`; unknown types stop with an assertion. -/
theorem c77_types (g s e : ℂ × ℂ) :
    (∀ a b, typeRK g s e 's' = .ok a → typeRK g s e 'e' = .ok b → typeRK g s e 'k' = .ok (a + b)) ∧
    (∀ c, c ∉ ['g', 's', 'k', 'e'] → typeRK g s e c = .error .assertion) := by
  constructor
  · intro a b h1 h2
    simp only [typeRK, Except.ok.injEq] at h1 h2 ⊢
    rw [← h1, ← h2]
  · intro c hc
    simp only [List.mem_cons, List.not_mem_nil, or_false, not_or] at hc
    unfold typeRK
    split <;> simp_all

example : fermiDistr 3 1 (1/2) + fermiDistr (-1) 1 (1/2) = 1 := by
  have h := (c76_distribution 0 1 (1/2) 0 (by norm_num)).2.2.2.1 2
  norm_num at h; exact h
example : g0Rinv ⟨1, 0, 1, 1, 0, 1⟩ + I * (1:ℝ) * 0.5 - (⟨-1, -1⟩ : ℂ) ≠ 0 := by
  intro h; have := congrArg re h; norm_num [g0Rinv] at this

end Verif.Propagator
