import Verif.Fdt.Props
import Verif.Fdt.PropsChecks
import Verif.Fdt.PropsSlices

/-! Concrete cases that meet the hypotheses of C112 – C115: the response function of `PropsChecks`, which does not
vanish. -/
namespace Verif.Fdt
open Freqs (Ch)
open Filter Topology

example (ch : Ch) : cellK1 ch 1 30 (component (responseV ch 1 30)) = component (responseV ch 1 30) :=
  c112_first ch 1 30 2 3 one_pos _ (responseV_thermal ch 1 30 2 3).1 (responseV_thermal ch 1 30 2 3).2.1
    (responseV_thermal ch 1 30 2 3).2.2

example (ch : Ch) : diffK1 ch 1 30 (component (responseV ch 1 30)) = 0 :=
  c112_first_check ch 1 30 2 3 one_pos _ (responseV_thermal ch 1 30 2 3).1 (responseV_thermal ch 1 30 2 3).2.1
    (responseV_thermal ch 1 30 2 3).2.2

example (ch : Ch) : cellK2 ch 1 30 2 (component (responseV ch 1 30)) = component (responseV ch 1 30) :=
  c112_second ch 1 30 2 3 one_pos _ (responseV_thermal ch 1 30 2 3).2.1 (responseV_thermal ch 1 30 2 3).2.2

example (ch : Ch) : cellK3 ch 1 30 2 3 (component (responseV ch 1 30)) = component (responseV ch 1 30) :=
  c112_third ch 1 30 2 3 _ (responseV_thermal ch 1 30 2 3).2.2

/-- Five frequencies `30 i`, each with its response function. -/
example (ch : Ch) : computeK1 ch 5 1 (fun i => 30 * i) 1 (fun _ (iw : Nat) iK _ => component (responseV ch 1 (30 * iw)) iK)
    = fun _ (iw : Nat) iK _ => component (responseV ch 1 (30 * iw)) iK :=
  c112_first_all ch 5 1 _ 1 one_pos _ fun _ iw _ _ => ⟨responseV ch 1 (30 * iw), 2, 3, (responseV_thermal ch 1 _ 2 3).1,
    (responseV_thermal ch 1 _ 2 3).2.1, (responseV_thermal ch 1 _ 2 3).2.2, fun _ => rfl⟩

example (ch : Ch) : computeK2 ch 5 2 1 (fun i j => (30 * i, j)) 1
      (fun _ (iw : Nat) _ iK _ => component (responseV ch 1 (30 * iw)) iK)
    = fun _ (iw : Nat) _ iK _ => component (responseV ch 1 (30 * iw)) iK :=
  c112_second_all ch 5 2 1 _ 1 one_pos _ fun _ iw _ _ _ _ => ⟨responseV ch 1 (30 * iw), 3, (responseV_thermal ch 1 _ 2 3).2.1,
    (responseV_thermal ch 1 _ _ 3).2.2, fun _ => rfl⟩

example (ch : Ch) : computeK3 ch 5 2 2 1 1 (fun i j k => (30 * i, j, k)) 1
      (fun _ (iw : Nat) _ _ iK _ => component (responseV ch 1 (30 * iw)) iK)
    = fun _ (iw : Nat) _ _ iK _ => component (responseV ch 1 (30 * iw)) iK :=
  c112_third_all ch 5 2 2 1 1 _ 1 _ fun _ iw _ _ _ _ _ _ => ⟨responseV ch 1 (30 * iw),
    (responseV_thermal ch 1 _ _ _).2.2, fun _ => rfl⟩

/-- Data that do not obey the relation are changed. -/
example : computeK1 .a 1 1 (fun _ => 30) 1 (fun _ _ k _ => if k = 1 then Complex.I else 0)
    ≠ fun _ _ k _ => if k = 1 then Complex.I else 0 := by
  intro h
  have := (c115_detects_partial .a 1 1 (fun _ => 30) 1 one_pos _).1 h 0 0 0 (by norm_num) (by norm_num) (by norm_num)
    (by norm_num [abs_of_pos])
  have e := congrArg Complex.im this
  norm_num at e

/-- The response function at zero temperature. -/
noncomputable def coldResponse : Contour := fun a b c d =>
  if a = d ∧ b = c then (match a, b with | false, true => Complex.I | true, false => 0 | _, _ => -Complex.I / 2) else 0

/-- Cooling the response function at frequency 1. -/
example : coldResponse true false false true = 0 ∧ zeroByFDT .a (number true false false true) 1 0 0 = true := by
  have hlim : Tendsto (fun n : Nat => ((Real.exp (-1 / (1 / ((n : ℝ) + 1))) : ℝ) : ℂ)) atTop (𝓝 0) := by
    have : ∀ n : Nat, -1 / (1 / ((n : ℝ) + 1)) = -((n : ℝ) + 1) := by intro n; field_simp
    simp only [this]
    have h : Tendsto (fun n : Nat => Real.exp (-((n : ℝ) + 1))) atTop (𝓝 0) :=
      Real.tendsto_exp_neg_atTop_nhds_zero.comp (tendsto_atTop_add_const_right _ _ tendsto_natCast_atTop_atTop)
    have h' := (Complex.continuous_ofReal.tendsto 0).comp h
    rw [Complex.ofReal_zero] at h'
    exact h'
  refine c114_zero_partial .a 1 0 0 (fun n => 1 / ((n : ℝ) + 1)) (fun n => by positivity)
    tendsto_one_div_add_atTop_nhds_zero_nat (fun n => responseV .a (1 / ((n : ℝ) + 1)) 1)
    (fun n => (responseV_thermal .a _ 1 0 0).2.2) coldResponse ?_ true false false true (by simp [backward, leg, Matrix.cons_val])
  have h1 : Tendsto (fun n : Nat => Complex.I * ((Real.exp (-1 / (1 / ((n : ℝ) + 1))) : ℝ) : ℂ)) atTop (𝓝 0) := by
    simpa using hlim.const_mul Complex.I
  have h2 : Tendsto (fun n : Nat => -Complex.I * (1 + ((Real.exp (-1 / (1 / ((n : ℝ) + 1))) : ℝ) : ℂ)) / 2) atTop
      (𝓝 (-Complex.I / 2)) := by
    simpa using ((hlim.const_add 1).const_mul (-Complex.I)).div_const 2
  intro a b c d
  cases a <;> cases b <;> cases c <;> cases d <;>
    first
    | (simp only [responseV, coldResponse]; norm_num; done)
    | (simp only [responseV, coldResponse, response, and_self, if_true]; exact h1)
    | (simp only [responseV, coldResponse, response, and_self, if_true]; exact h2)
    | (simp only [responseV, coldResponse, response, and_self, if_true]; exact tendsto_const_nhds)

end Verif.Fdt
