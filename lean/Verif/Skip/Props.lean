import Verif.Skip.Lemmas

/-
C104: internal Keldysh components that are left out do not contribute.
-/
namespace Verif.Skip
open Keldysh Filter Topology

/-- C104 for bare vertices: every internal component that is left out vanishes at every frequency, whatever the
propagators are. -/
theorem c104_bare (ch : Ch) (uL uR : ℂ) (g1 g2 : Prop2 ℂ) (i0 : Nat) (hi : i0 ∈ external ch) (i2 : Nat) (h2 : i2 < 16)
    (hs : skip ch false i0 i2 = true) :
    bareVertex uL (indicesSum ch i0 i2).1 * value g1 g2 i2 * bareVertex uR (indicesSum ch i0 i2).2 = 0 := by
  have key : ∀ i0 ∈ external ch, ∀ i2 < 16, skip ch false i0 i2 = true →
      (indicesSum ch i0 i2).1 ∉ Symmetries.oddKeldysh ∨ (indicesSum ch i0 i2).2 ∉ Symmetries.oddKeldysh ∨
        i2 ∉ nonZeroBubble := by cases ch <;> decide +kernel
  rcases key i0 hi i2 h2 hs with h | h | h
  · simp [bareVertex, h]
  · simp [bareVertex, h]
  · have : value g1 g2 i2 = 0 := by
      unfold value
      split <;> first | rfl | (exact absurd (by decide) h)
    simp [this]

/-- A bare vertex is of the same class as itself in every channel. -/
theorem c104_bare_class (ch : Ch) (u : ℂ) : SameClass ch (bareVertex u) := by
  refine ⟨fun x y => if x = y then 0 else u, rfl, ?_⟩
  have key : ∀ i < 16, ((i ∈ Symmetries.oddKeldysh) ↔
      ¬ (decide ((leftRight ch i).1 = 1 ∨ (leftRight ch i).1 = 2) = decide ((leftRight ch i).2 = 1 ∨ (leftRight ch i).2 = 2))) := by
    cases ch <;> decide +kernel
  intro i hi
  simp only [bareVertex, key i hi]
  split_ifs <;> simp_all

/-- The components of first-class vertices in the tables of the code have the structure of the specification: a
component is marked as vanishing exactly if both pairs of legs have an even number of second Keldysh indices, and two
components with the same pair of parities are stored in the same place. -/
theorem c104_tables (ch : Freqs.Ch) : ∀ i < 16, ∀ j < 16,
    let c : Ch := match ch with | .a => .a | .p => .p | .t => .t
    (Symmetries.component ch .k1 0 i = some (-1) ↔ pl c i = false ∧ pr c i = false) ∧
    (pl c i = pl c j → pr c i = pr c j → Symmetries.component ch .k1 0 i = Symmetries.component ch .k1 0 j) := by
  cases ch <;> decide +kernel

/-- C104 for all first-class vertices: what is left out integrates to zero if the propagators are causal. -/
theorem c104_integral (ch : Ch) (L R : Nat → ℂ) (hL : SameClass ch L) (hR : SameClass ch R) (g : ℝ → Prop2 ℂ)
    (hg : Causal g) (w : ℝ) (i0 : Nat) (hi : i0 ∈ external ch) :
    Tendsto (fun l : ℝ => ∫ v in (-l)..l, (contraction ch L R g w i0 v - computed ch L R g w i0 v)) atTop (𝓝 0) := by
  obtain ⟨c, hc⟩ := difference hL hR hi
  obtain ⟨hcont, h1, h2⟩ := hg
  have conj0 : ∀ f : ℝ → ℂ, Tendsto (fun l : ℝ => ∫ v in (-l)..l, f v) atTop (𝓝 0) →
      Tendsto (fun l : ℝ => ∫ v in (-l)..l, star (f v)) atTop (𝓝 0) := by
    intro f hf
    have h : ∀ l : ℝ, ∫ v in (-l)..l, star (f v) = (starRingEnd ℂ) (∫ v in (-l)..l, f v) := fun l => by
      simp only [intervalIntegral, map_sub, ← integral_conj]
      rfl
    simp only [h]
    have h2 : Tendsto (starRingEnd ℂ) (𝓝 (0 : ℂ)) (𝓝 (starRingEnd ℂ 0)) := Complex.continuous_conj.tendsto 0
    rw [map_zero] at h2
    exact h2.comp hf
  have both : ∀ f : ℝ → ℂ, Continuous f → Tendsto (fun l : ℝ => ∫ v in (-l)..l, f v) atTop (𝓝 0) →
      Tendsto (fun l : ℝ => ∫ v in (-l)..l, c * (star (f v) + f v)) atTop (𝓝 0) := by
    intro f hf h
    have e : ∀ l : ℝ, ∫ v in (-l)..l, c * (star (f v) + f v) =
        c * ((∫ v in (-l)..l, star (f v)) + ∫ v in (-l)..l, f v) := fun l => by
      rw [intervalIntegral.integral_const_mul, intervalIntegral.integral_add]
      · exact (continuous_star.comp hf).intervalIntegrable _ _
      · exact hf.intervalIntegrable _ _
    simp only [e]
    simpa using ((conj0 f h).add h).const_mul c
  have cont2 : ∀ w : ℝ, Continuous fun v : ℝ => (g (v - w / 2)).gr * (g (v + w / 2)).gr := fun w =>
    (hcont.comp (by fun_prop)).mul (hcont.comp (by fun_prop))
  have cont3 : ∀ w : ℝ, Continuous fun v : ℝ => (g (w / 2 + v)).gr * star (g (w / 2 - v)).gr := fun w =>
    (hcont.comp (by fun_prop)).mul (continuous_star.comp (hcont.comp (by fun_prop)))
  simp only [hc]
  cases ch
  · refine (both _ (cont2 w) (h1 w)).congr fun l => ?_
    simp only [dropped, freqs, value, star_mul']
  · refine (both _ (cont3 w) (h2 w)).congr fun l => ?_
    simp only [dropped, freqs, value, star_mul', star_star]
  · refine (both _ (cont2 w) (h1 w)).congr fun l => ?_
    simp only [dropped, freqs, value, star_mul']

/-- The propagator of a level with a constant broadening is causal; its Keldysh component does not matter. -/
theorem c104_causal (ε Δ : ℝ) (hΔ : 0 < Δ) (K : ℝ → ℂ) :
    Causal (fun v => ⟨((v : ℂ) - ε + Complex.I * Δ)⁻¹, K v⟩) := by
  have him : ∀ x : ℝ, 0 < ((x : ℂ) - ε + Complex.I * Δ).im := by intro x; simpa using hΔ
  have hne : ∀ x : ℝ, (x : ℂ) - ε + Complex.I * Δ ≠ 0 := by
    intro x h
    have := him x
    rw [h] at this
    simp at this
  refine ⟨Continuous.inv₀ (by fun_prop) hne, fun w => ?_, fun w => ?_⟩
  · refine (upper_product (him (-(w / 2))) (him (w / 2))).congr fun l => ?_
    refine intervalIntegral.integral_congr fun v _ => ?_
    simp only [← mul_inv]
    congr 2 <;> (push_cast; ring)
  · have h := (upper_product (him (w / 2)) (a := (((w / 2 : ℝ)) : ℂ) - ε + Complex.I * Δ)
      (b := -(((w / 2 : ℝ)) : ℂ) + ε + Complex.I * Δ) (by simpa using hΔ)).neg
    rw [neg_zero] at h
    refine h.congr fun l => ?_
    rw [← intervalIntegral.integral_neg]
    refine intervalIntegral.integral_congr fun v _ => ?_
    simp only [Complex.star_def, map_inv₀, map_add, map_sub, map_mul, Complex.conj_ofReal, Complex.conj_I, ← mul_inv,
      ← inv_neg]
    congr 1
    push_cast
    ring

/-- The hypotheses are met, and what is left out does not vanish at every frequency. -/
example : SameClass .a (fun i => if pl .a i = true ∧ pr .a i = true then (1 : ℂ) else 0) ∧
    SameClass .a (bareVertex 1) ∧ 3 ∈ external .a ∧ skip .a false 3 12 = true ∧
    indicesSum .a 3 12 = (3, 3) := by
  refine ⟨⟨fun x y => if x = true ∧ y = true then 1 else 0, by simp, fun i hi => ?_⟩, c104_bare_class _ _, by decide,
    by decide, by decide⟩
  rw [pl_eq .a i hi, pr_eq .a i hi]

/-- Nothing is left out for differentiated propagators, nor for other external components. -/
theorem c104_otherwise (ch : Ch) (i0 i2 : Nat) :
    skip ch true i0 i2 = false ∧ (i0 ∉ external ch → skip ch false i0 i2 = false) := by
  refine ⟨rfl, fun h => ?_⟩
  cases ch <;> simp_all [external, skip, skipAT, skipP]

/-- How much is left out: of the nine internal components two or seven remain. -/
theorem c104_kept (ch : Ch) (i0 : Nat) (hi : i0 ∈ external ch) :
    (nonZeroBubble.filter fun i2 => !skip ch false i0 i2).length = if i0 = 1 then 2 else 7 := by
  have : ∀ i0 ∈ external ch, (nonZeroBubble.filter fun i2 => !skip ch false i0 i2).length = if i0 = 1 then 2 else 7 := by
    cases ch <;> decide +kernel
  exact this i0 hi

end Verif.Skip
