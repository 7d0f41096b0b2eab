import Verif.Causal.Tri
import Verif.Causal.Model
import Verif.Pt2.PropsSelf
import Verif.Thermal.Props

/-! The components of the second-order diagram. -/
namespace Verif.Causal
open Verif.Symmetries Verif.Heredity Verif.Propagator Verif.Invariant Verif.Sde.Limit Verif.Sde Verif.Pt2 MeasureTheory
open Verif.Freqs (Ch)

section
variable (A B C : Line) (w : ℝ) (v vp y : ℝ)

theorem dia_tf : dia3 A B C w true false v vp y = (w : ℂ) ^ 2 * (
    (A vp).gk * (B y).gk * (C (y + vp - v)).gr + (A vp).gk * star (B y).gr * (C (y + vp - v)).gk +
    star (A vp).gr * (B y).gk * (C (y + vp - v)).gk + (A vp).gr * (B y).gr * (C (y + vp - v)).gr +
    (A vp).gr * star (B y).gr * star (C (y + vp - v)).gr + star (A vp).gr * (B y).gr * star (C (y + vp - v)).gr +
    star (A vp).gr * star (B y).gr * (C (y + vp - v)).gr) := by
  simp only [dia3, kern3, Fintype.sum_prod_type, Fintype.sum_bool, comp, beta, twos]
  simp
  ring

theorem dia_tt : dia3 A B C w true true v vp y = (w : ℂ) ^ 2 * (
    (A vp).gk * (B y).gr * (C (y + vp - v)).gr + (A vp).gk * star (B y).gr * star (C (y + vp - v)).gr +
    (A vp).gr * (B y).gk * (C (y + vp - v)).gr + star (A vp).gr * (B y).gk * star (C (y + vp - v)).gr +
    (A vp).gr * star (B y).gr * (C (y + vp - v)).gk + star (A vp).gr * (B y).gr * (C (y + vp - v)).gk) := by
  simp only [dia3, kern3, Fintype.sum_prod_type, Fintype.sum_bool, comp, beta, twos]
  simp
  ring

theorem dia_ff : dia3 A B C w false false v vp y = (w : ℂ) ^ 2 * (
    (A vp).gk * (B y).gk * (C (y + vp - v)).gk +
    (A vp).gk * ((B y).gr * star (C (y + vp - v)).gr + star (B y).gr * (C (y + vp - v)).gr) +
    (B y).gk * ((A vp).gr * star (C (y + vp - v)).gr + star (A vp).gr * (C (y + vp - v)).gr) +
    (C (y + vp - v)).gk * ((A vp).gr * (B y).gr + star (A vp).gr * star (B y).gr)) := by
  simp only [dia3, kern3, Fintype.sum_prod_type, Fintype.sum_bool, comp, beta, twos]
  simp
  ring
end

/-- Lines with a distribution `n` between -1 and 1 and damping. -/
structure Distr (n : ℝ → ℝ) (G : Line) : Prop where
  low : ∀ x, -1 ≤ n x
  high : ∀ x, n x ≤ 1
  gk : ∀ x, (G x).gk = (n x : ℝ) * ((G x).gr - star (G x).gr)
  im : ∀ x, ((G x).gr).im ≤ 0

/-- The combination of distributions in the imaginary part of the diagram. -/
def occ (n1 n2 n3 : ℝ) : ℝ := 1 + n1 * n2 - n3 * (n1 + n2)

theorem occ_nonneg {n1 n2 n3 : ℝ} (a : -1 ≤ n1) (a' : n1 ≤ 1) (b : -1 ≤ n2) (b' : n2 ≤ 1) (c : -1 ≤ n3) (c' : n3 ≤ 1) :
    0 ≤ occ n1 n2 n3 := by
  have h1 : 0 ≤ (1 - n1) * (1 - n2) * (1 + n3) := mul_nonneg (mul_nonneg (by linarith) (by linarith)) (by linarith)
  have h2 : 0 ≤ (1 + n1) * (1 + n2) * (1 - n3) := mul_nonneg (mul_nonneg (by linarith) (by linarith)) (by linarith)
  have e : occ n1 n2 n3 = ((1 - n1) * (1 - n2) * (1 + n3) + (1 + n1) * (1 + n2) * (1 - n3)) / 2 := by unfold occ; ring
  rw [e]; linarith

variable {n : ℝ → ℝ} {G : Line}

/-- The imaginary part of the retarded component. -/
theorem dia_im (h : Distr n G) (w v vp y : ℝ) : star (dia3 G G G w true false v vp y) - dia3 G G G w true false v vp y =
    ((8 * w ^ 2 * (((G vp).gr).im * ((G y).gr).im * ((G (y + vp - v)).gr).im) * occ (n vp) (n y) (n (y + vp - v)) : ℝ) : ℂ) * Complex.I := by
  rw [dia_tf]
  simp only [h.gk]
  generalize n vp = n1
  generalize n y = n2
  generalize n (y + vp - v) = n3
  generalize (G vp).gr = z1
  generalize (G y).gr = z2
  generalize (G (y + vp - v)).gr = z3
  apply Complex.ext
  · simp [occ, pow_two]
    ring
  · simp [occ, pow_two]
    ring

/-- The Keldysh component, up to the one that causality demands to vanish. -/
theorem dia_keldysh (h : Distr n G) {T mu : ℝ} (hn : ∀ x, n x = Real.tanh ((x - mu) / (2 * T))) (w v vp y : ℝ) :
    dia3 G G G w false false v vp y - dia3 G G G w true true v vp y =
      (n v : ℝ) * (star (dia3 G G G w true false v vp y) - dia3 G G G w true false v vp y) := by
  have add : n v * occ (n vp) (n y) (n (y + vp - v)) = n vp + n y - n (y + vp - v) - n vp * n y * n (y + vp - v) := by
    simp only [hn, occ]
    rw [show (v - mu) / (2 * T) = (vp - mu) / (2 * T) + (y - mu) / (2 * T) - (y + vp - v - mu) / (2 * T) by ring]
    generalize (vp - mu) / (2 * T) = a
    generalize (y - mu) / (2 * T) = b
    generalize (y + vp - v - mu) / (2 * T) = c
    simp only [Real.tanh_eq_sinh_div_cosh, Real.sinh_sub, Real.cosh_sub, Real.sinh_add, Real.cosh_add]
    have ha := (Real.cosh_pos a).ne'
    have hb := (Real.cosh_pos b).ne'
    have hc := (Real.cosh_pos c).ne'
    have hd : (Real.cosh a * Real.cosh b + Real.sinh a * Real.sinh b) * Real.cosh c -
        (Real.sinh a * Real.cosh b + Real.cosh a * Real.sinh b) * Real.sinh c ≠ 0 := by
      rw [← Real.sinh_add, ← Real.cosh_add, ← Real.cosh_sub]
      exact (Real.cosh_pos _).ne'
    rw [div_mul_eq_mul_div, div_eq_iff hd]
    field_simp
    ring
  rw [dia_im h, dia_ff, dia_tt]
  simp only [h.gk]
  have e : ((n v : ℝ) : ℂ) * (((8 * w ^ 2 * (((G vp).gr).im * ((G y).gr).im * ((G (y + vp - v)).gr).im) * occ (n vp) (n y) (n (y + vp - v)) : ℝ) : ℂ) * Complex.I) =
      ((8 * w ^ 2 * (((G vp).gr).im * ((G y).gr).im * ((G (y + vp - v)).gr).im) *
        (n vp + n y - n (y + vp - v) - n vp * n y * n (y + vp - v)) : ℝ) : ℂ) * Complex.I := by
    rw [← add]; push_cast; ring
  rw [e]
  clear e add
  generalize n vp = n1
  generalize n y = n2
  generalize n (y + vp - v) = n3
  generalize (G vp).gr = z1
  generalize (G y).gr = z2
  generalize (G (y + vp - v)).gr = z3
  apply Complex.ext
  · simp [pow_two]
    try ring
  · simp [pow_two]
    ring

end Verif.Causal
