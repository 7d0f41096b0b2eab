import Verif.DiagTails.Lemmas
import Verif.Loop.Spec

/-! C129: the analytic tails of the self-energy loop. -/
namespace Verif.DiagTails
open Complex MeasureTheory Filter Topology Verif.Tails

/-- Retarded propagator (`type = 'g'`) or single-scale propagator (otherwise) with the real Hartree self-energy. -/
noncomputable def retarded (type : Char) (p : Propagator.Par) (H ν : ℝ) : ℂ :=
  if type = 'g' then Propagator.gR .hyb { p with v := ν } ⟨H, 0, 0⟩ else Propagator.sR .hyb { p with v := ν } ⟨H, 0, 0⟩

/-- The Keldysh component at zero temperature. -/
noncomputable def keldysh (type : Char) (p : Propagator.Par) (H ν : ℝ) : ℂ :=
  if type = 'g' then Propagator.gKeq .hyb (Propagator.fermiFac0 ν p.mu) { p with v := ν } ⟨H, 0, 0⟩
  else Propagator.sKeq .hyb (Propagator.fermiFac0 ν p.mu) { p with v := ν } ⟨H, 0, 0⟩

/-- Component 0, 1, 2: retarded, advanced, Keldysh. -/
noncomputable def component (iK : Nat) (type : Char) (p : Propagator.Par) (H ν : ℝ) : ℂ :=
  if iK = 0 then retarded type p H ν else if iK = 1 then (starRingEnd ℂ) (retarded type p H ν) else keldysh type p H ν

theorem gR_eq (p : Propagator.Par) (H ν : ℝ) : retarded 'g' p H ν
    = 1 / ((ν : ℂ) + (-(p.eps + H : ℝ) + I * ((p.Gam + p.Lam) / 2 : ℝ))) := by
  simp only [retarded, if_true, Propagator.gR, Propagator.gR2, Propagator.g0Rinv]
  congr 1; push_cast; ring

theorem gA_eq (p : Propagator.Par) (H ν : ℝ) : (starRingEnd ℂ) (retarded 'g' p H ν)
    = 1 / ((ν : ℂ) + (-(p.eps + H : ℝ) - I * ((p.Gam + p.Lam) / 2 : ℝ))) := by
  rw [gR_eq, map_div₀, map_one]
  congr 1
  simp only [map_add, map_neg, map_mul, conj_ofReal, conj_I]
  ring

theorem sR_eq (p : Propagator.Par) (H ν : ℝ) : retarded 's' p H ν
    = -I / 2 * (retarded 'g' p H ν * retarded 'g' p H ν) := by
  have h : ¬ ('s' = 'g') := by decide
  simp only [retarded, if_neg h, if_true, Propagator.sR, Propagator.sR2, Propagator.gR]
  norm_num
  ring

theorem sA_eq (p : Propagator.Par) (H ν : ℝ) : (starRingEnd ℂ) (retarded 's' p H ν)
    = I / 2 * ((starRingEnd ℂ) (retarded 'g' p H ν) * (starRingEnd ℂ) (retarded 'g' p H ν)) := by
  rw [sR_eq]
  simp only [map_mul, map_div₀, map_neg, conj_I, neg_neg]
  congr 2
  exact Complex.conj_ofNat 2

theorem gK_eq (p : Propagator.Par) (H ν : ℝ) (hyb : 0 < p.Gam + p.Lam) : keldysh 'g' p H ν
    = -(2 * I) * (Propagator.fermiFac0 ν p.mu : ℝ) * (((p.Gam + p.Lam) / 2
      / ((ν - (p.eps + H)) * (ν - (p.eps + H)) + (p.Gam + p.Lam) / 2 * ((p.Gam + p.Lam) / 2)) : ℝ) : ℂ) := by
  have h := gR_eq p H ν
  simp only [retarded, if_true] at h
  simp only [keldysh, if_true, Propagator.gKeq]
  rw [h]
  have e : ((ν : ℂ) + (-(p.eps + H : ℝ) + I * ((p.Gam + p.Lam) / 2 : ℝ))) =
      ⟨ν - (p.eps + H), (p.Gam + p.Lam) / 2⟩ := by
    apply Complex.ext <;> simp
    ring
  rw [e]
  have e2 : (1 / (⟨ν - (p.eps + H), (p.Gam + p.Lam) / 2⟩ : ℂ)).im = -((p.Gam + p.Lam) / 2
      / ((ν - (p.eps + H)) * (ν - (p.eps + H)) + (p.Gam + p.Lam) / 2 * ((p.Gam + p.Lam) / 2))) := by
    rw [one_div, inv_im, normSq_mk]
    ring
  rw [e2]
  push_cast; ring

theorem sK_eq (p : Propagator.Par) (H ν : ℝ) : keldysh 's' p H ν
    = (Propagator.fermiFac0 ν p.mu : ℝ) * (retarded 's' p H ν - (starRingEnd ℂ) (retarded 's' p H ν)) := by
  have h : ¬ ('s' = 'g') := by decide
  simp only [keldysh, if_neg h, Propagator.sKeq]
  rw [Complex.sub_conj]
  simp only [retarded, if_neg h]
  push_cast; ring

theorem sgn_above {ν mu : ℝ} (h : mu < ν) : Propagator.fermiFac0 ν mu = 1 := by
  simp only [Propagator.fermiFac0, Propagator.sgn]
  rw [if_pos (by linarith), if_neg (by linarith)]; norm_num

theorem sgn_below {ν mu : ℝ} (h : ν < mu) : Propagator.fermiFac0 ν mu = -1 := by
  simp only [Propagator.fermiFac0, Propagator.sgn]
  rw [if_neg (by linarith), if_pos (by linarith)]; norm_num

/-- C129: the values used for the tails of the loop are the contributions of the frequencies outside the box to the
integral of the propagator, for retarded, advanced and (at zero temperature) Keldysh component of the full and of the
single-scale propagator, whenever the box contains the level and the chemical potential. -/
theorem c129_keldysh (p : Propagator.Par) (H vmin vmax : ℝ) (hyb : 0 < p.Gam + p.Lam) (h0 : vmin ≤ 0)
    (h1 : vmin < p.eps + H) (h2 : p.eps + H < vmax) (h3 : vmin < p.mu) (h4 : p.mu < vmax)
    (type : Char) (ht : type = 'g' ∨ type = 's') (iK : Nat) (hK : iK < 3) :
    IsTail (component iK type p H) vmin vmax
      (selfKeldysh iK vmin vmax (p.eps + H : ℝ) ((p.Gam + p.Lam) / 2) type) := by
  set e : ℝ := p.eps + H with he
  set Δ : ℝ := (p.Gam + p.Lam) / 2 with hΔ
  have dp : 0 < Δ := by rw [hΔ]; linarith
  have ha : |vmin| = -vmin := abs_of_nonpos h0
  have r1 : 0 < vmax + (-(e : ℂ) + I * (Δ : ℂ)).re := by simp; linarith
  have r2 : 0 < vmax + (-(e : ℂ) - I * (Δ : ℂ)).re := by simp; linarith
  have r3 : 0 < -vmin + ((e : ℂ) - I * (Δ : ℂ)).re := by simp; linarith
  have r4 : 0 < -vmin + ((e : ℂ) + I * (Δ : ℂ)).re := by simp; linarith
  have R1 := re_pos r1 le_rfl
  have R2 := re_pos r2 le_rfl
  have R3 := re_pos r3 le_rfl
  have R4 := re_pos r4 le_rfl
  have gs : ¬ ('s' = 'g') := by decide
  -- reflections
  have f1 : ∀ v : ℝ, retarded 'g' p H (-v) = -(1 / ((v : ℂ) + ((e : ℂ) - I * (Δ : ℂ)))) := by
    intro v
    rw [gR_eq, ← he, ← hΔ, ← one_div_neg_eq_neg_one_div]
    congr 1; push_cast; ring
  have f2 : ∀ v : ℝ, (starRingEnd ℂ) (retarded 'g' p H (-v)) = -(1 / ((v : ℂ) + ((e : ℂ) + I * (Δ : ℂ)))) := by
    intro v
    rw [gA_eq, ← he, ← hΔ, ← one_div_neg_eq_neg_one_div]
    congr 1; push_cast; ring
  have i3 : iK = 0 ∨ iK = 1 ∨ iK = 2 := by omega
  rcases ht with rfl | rfl <;> rcases i3 with rfl | rfl | rfl
  · have t := tail_single (f := component 0 'g' p H) (c := 1) r1 r3
      (fun v _ => by simp only [component, if_true]; rw [gR_eq, ← he, ← hΔ]; ring)
      (fun v _ => by simp only [component, if_true]; rw [f1]; ring)
    convert t using 1
    simp only [selfKeldysh, if_true, ha]
    rw [← log_quot R3 R1]
    rw [one_mul]; congr 1; congr 1 <;> push_cast <;> ring
  · have t := tail_single (f := component 1 'g' p H) (c := 1) r2 r4
      (fun v _ => by simp only [component, if_true, one_ne_zero, if_false]; rw [gA_eq, ← he, ← hΔ]; ring)
      (fun v _ => by simp only [component, if_true, one_ne_zero, if_false]; rw [f2]; ring)
    convert t using 1
    simp only [selfKeldysh, if_true, ha, one_ne_zero, if_false]
    rw [← log_quot R4 R2]
    rw [one_mul]; congr 1; congr 1 <;> push_cast <;> ring
  · have u := (upper_lorentz (a := vmax) (e := e) dp).const_mul (-(2 * I))
    have l := (upper_lorentz (a := -vmin) (e := -e) dp).const_mul (2 * I)
    have t := isTail_of (f := component 2 'g' p H) (vmin := vmin) (vmax := vmax)
      (up := fun v => -(2 * I) * ((Δ / ((v - e) * (v - e) + Δ * Δ) : ℝ) : ℂ))
      (lo := fun v => 2 * I * ((Δ / ((v - -e) * (v - -e) + Δ * Δ) : ℝ) : ℂ))
      (fun v hv => by
        show keldysh 'g' p H v = _
        rw [gK_eq p H v hyb, sgn_above (by linarith), ← he, ← hΔ]; push_cast; ring)
      (fun v hv => by
        show keldysh 'g' p H (-v) = _
        rw [gK_eq p H (-v) hyb, sgn_below (by linarith), ← he, ← hΔ]
        rw [show (-v - e) * (-v - e) = (v - -e) * (v - -e) by ring]; push_cast; ring)
      (u.congr fun R => by rw [intervalIntegral.integral_const_mul])
      (l.congr fun R => by rw [intervalIntegral.integral_const_mul])
    convert t using 1
    have k1 : ((vmax : ℂ) - (e : ℂ)) / (Δ : ℂ) = (((vmax - e) / Δ : ℝ) : ℂ) := by push_cast; ring
    have k2 : (((|vmin| : ℝ) : ℂ) + (e : ℂ)) / (Δ : ℂ) = (((-vmin - -e) / Δ : ℝ) : ℂ) := by rw [ha]; push_cast; ring
    have two : ¬ (2 = 0) := by decide
    have two' : ¬ (2 = 1) := by decide
    simp only [selfKeldysh, if_true, if_neg two, if_neg two']
    rw [k1, k2, ← ofReal_arctan, ← ofReal_arctan]
    push_cast; ring
  · have t := tail_square (f := component 0 's' p H) (c := -I / 2) (d := -I / 2) r1 r3
      (fun v _ => by
        simp only [component, if_true]; rw [sR_eq, gR_eq, ← he, ← hΔ, one_div_mul_one_div])
      (fun v _ => by
        simp only [component, if_true]; rw [sR_eq, f1, neg_mul_neg, one_div_mul_one_div])
    convert t using 1
    simp only [selfKeldysh, if_true, if_neg gs]
    have e1 : (vmax : ℂ) - (e : ℂ) + I * (Δ : ℂ) = (vmax : ℂ) + (-(e : ℂ) + I * (Δ : ℂ)) := by ring
    have e2 : (vmin : ℂ) - (e : ℂ) + I * (Δ : ℂ) = -(((-vmin : ℝ) : ℂ) + ((e : ℂ) - I * (Δ : ℂ))) := by push_cast; ring
    rw [e1, e2, one_div_neg_eq_neg_one_div]
    ring
  · have t := tail_square (f := component 1 's' p H) (c := I / 2) (d := I / 2) r2 r4
      (fun v _ => by
        simp only [component, if_true, one_ne_zero, if_false]; rw [sA_eq, gA_eq, ← he, ← hΔ, one_div_mul_one_div])
      (fun v _ => by
        simp only [component, if_true, one_ne_zero, if_false]; rw [sA_eq, f2, neg_mul_neg, one_div_mul_one_div])
    convert t using 1
    simp only [selfKeldysh, if_true, if_neg gs, one_ne_zero, if_false]
    have e1 : (vmax : ℂ) - (e : ℂ) - I * (Δ : ℂ) = (vmax : ℂ) + (-(e : ℂ) - I * (Δ : ℂ)) := by ring
    have e2 : (vmin : ℂ) - (e : ℂ) - I * (Δ : ℂ) = -(((-vmin : ℝ) : ℂ) + ((e : ℂ) + I * (Δ : ℂ))) := by push_cast; ring
    rw [e1, e2, one_div_neg_eq_neg_one_div]
    ring
  · have u1 := upper_square r1
    have u2 := upper_square r2
    have l1 := upper_square r3
    have l2 := upper_square r4
    have ci : ∀ (a R : ℝ) (α : ℂ), 0 < a + α.re → a ≤ R →
        IntervalIntegrable (fun v : ℝ => 1 / (((v : ℂ) + α) * ((v : ℂ) + α))) volume a R := by
      intro a R α h hR
      apply ContinuousOn.intervalIntegrable
      rw [Set.uIcc_of_le hR]
      refine ContinuousOn.div continuousOn_const ((cont_shift α).mul (cont_shift α)).continuousOn ?_
      intro v hv
      have := Tails.ne_zero_of_re_pos (re_pos h hv.1)
      exact mul_ne_zero this this
    have t := isTail_of (f := component 2 's' p H) (vmin := vmin) (vmax := vmax)
      (up := fun v : ℝ => -I / 2 * (1 / (((v : ℂ) + (-(e : ℂ) + I * (Δ : ℂ))) * ((v : ℂ) + (-(e : ℂ) + I * (Δ : ℂ)))))
        + -I / 2 * (1 / (((v : ℂ) + (-(e : ℂ) - I * (Δ : ℂ))) * ((v : ℂ) + (-(e : ℂ) - I * (Δ : ℂ))))))
      (lo := fun v : ℝ => I / 2 * (1 / (((v : ℂ) + ((e : ℂ) - I * (Δ : ℂ))) * ((v : ℂ) + ((e : ℂ) - I * (Δ : ℂ)))))
        + I / 2 * (1 / (((v : ℂ) + ((e : ℂ) + I * (Δ : ℂ))) * ((v : ℂ) + ((e : ℂ) + I * (Δ : ℂ))))))
      (fun v hv => by
        show keldysh 's' p H v = _
        rw [sK_eq, sA_eq, sR_eq, gA_eq, gR_eq, sgn_above (by linarith), ← he, ← hΔ, one_div_mul_one_div,
          one_div_mul_one_div]
        push_cast; ring)
      (fun v hv => by
        show keldysh 's' p H (-v) = _
        rw [sK_eq, sA_eq, sR_eq, f2, f1, sgn_below (by linarith), neg_mul_neg, neg_mul_neg, one_div_mul_one_div,
          one_div_mul_one_div]
        push_cast; ring)
      (((u1.const_mul (-I / 2)).add (u2.const_mul (-I / 2))).congr' (by
        filter_upwards [eventually_ge_atTop vmax] with R hR
        rw [intervalIntegral.integral_add ((ci _ _ _ r1 hR).const_mul _) ((ci _ _ _ r2 hR).const_mul _),
          intervalIntegral.integral_const_mul, intervalIntegral.integral_const_mul]))
      (((l1.const_mul (I / 2)).add (l2.const_mul (I / 2))).congr' (by
        filter_upwards [eventually_ge_atTop (-vmin)] with R hR
        rw [intervalIntegral.integral_add ((ci _ _ _ r3 hR).const_mul _) ((ci _ _ _ r4 hR).const_mul _),
          intervalIntegral.integral_const_mul, intervalIntegral.integral_const_mul]))
    convert t using 1
    have two : ¬ (2 = 0) := by decide
    have two' : ¬ (2 = 1) := by decide
    simp only [selfKeldysh, if_true, if_neg gs, if_neg two, if_neg two']
    have n1 := Tails.ne_zero_of_re_pos R1
    have n2 := Tails.ne_zero_of_re_pos R2
    have n3 := Tails.ne_zero_of_re_pos R3
    have n4 := Tails.ne_zero_of_re_pos R4
    have d1 : ((vmax : ℂ) - e) * (vmax - e) + Δ * Δ = ((vmax : ℂ) + (-(e : ℂ) + I * Δ)) * (vmax + (-(e : ℂ) - I * Δ)) := by
      linear_combination (Δ : ℂ) * Δ * I_mul_I
    have d2 : ((vmin : ℂ) - e) * (vmin - e) + Δ * Δ = (((-vmin : ℝ) : ℂ) + ((e : ℂ) - I * Δ)) * (((-vmin : ℝ) : ℂ) + ((e : ℂ) + I * Δ)) := by
      push_cast
      linear_combination (Δ : ℂ) * Δ * I_mul_I
    rw [d1, d2]
    field_simp
    push_cast
    ring

end Verif.DiagTails
