import Verif.DiagTails.Props

/-! C129: the tails of the loop with its vertex, real and imaginary frequencies. -/
namespace Verif.DiagTails
open Complex MeasureTheory Filter Topology Verif.Tails

/-- Spin sum of the loop: one spin component, or `2 V + V^`. -/
def spinSum (allSpins : Bool) (V : Nat → ℂ) : ℂ := if allSpins then 2 * V 0 + V 1 else V 0

/-- A vertex (spin component, Keldysh component, loop frequency) that has reached its asymptotic value outside of
the box. -/
def Settled (Γ : LoopVertex) (vmin vmax : ℝ) (V : Nat → Nat → ℝ → ℂ) : Prop :=
  ∀ s c ν, ν ≤ vmin ∨ vmax ≤ ν → V s c ν = Γ.bare c s + Γ.same c s

/-- The propagator at loop frequency `ν` as a matrix in Keldysh indices. -/
noncomputable def propMatrix (type : Char) (p : Propagator.Par) (H ν : ℝ) : Matrix (Fin 2) (Fin 2) ℂ :=
  Keldysh.Prop2.matrix ⟨retarded type p H ν, keldysh type p H ν⟩

theorem cont_ret (p : Propagator.Par) (H : ℝ) (hyb : 0 < p.Gam + p.Lam) (type : Char) (ht : type = 'g' ∨ type = 's') :
    Continuous (retarded type p H) := by
  have hg : Continuous (retarded 'g' p H) := by
    rw [show retarded 'g' p H = fun ν : ℝ => 1 / ((ν : ℂ) + (-(p.eps + H : ℝ) + I * ((p.Gam + p.Lam) / 2 : ℝ))) from
      funext fun ν => gR_eq p H ν]
    refine Continuous.div continuous_const (cont_shift _) fun ν h => ?_
    have := congrArg Complex.im h
    simp at this
    linarith
  rcases ht with rfl | rfl
  · exact hg
  · rw [show retarded 's' p H = fun ν : ℝ => -I / 2 * (retarded 'g' p H ν * retarded 'g' p H ν) from
      funext fun ν => sR_eq p H ν]
    exact continuous_const.mul (hg.mul hg)

theorem keldysh_eq (type : Char) (ht : type = 'g' ∨ type = 's') (p : Propagator.Par) (H ν : ℝ) : keldysh type p H ν
    = (Propagator.fermiFac0 ν p.mu : ℝ) * (retarded type p H ν - (starRingEnd ℂ) (retarded type p H ν)) := by
  rcases ht with rfl | rfl
  · simp only [keldysh, if_true, Propagator.gKeq]
    rw [Complex.sub_conj]
    simp only [retarded, if_true]
    push_cast; ring
  · exact sK_eq p H ν

theorem cont_comp (p : Propagator.Par) (H vmin vmax : ℝ) (hyb : 0 < p.Gam + p.Lam) (h3 : vmin < p.mu) (h4 : p.mu < vmax)
    (type : Char) (ht : type = 'g' ∨ type = 's') (iK : Nat) :
    ContinuousOn (component iK type p H) (Set.Iic vmin) ∧ ContinuousOn (component iK type p H) (Set.Ici vmax) := by
  have hr := cont_ret p H hyb type ht
  have ha : Continuous fun ν => (starRingEnd ℂ) (retarded type p H ν) := continuous_conj.comp hr
  by_cases k0 : iK = 0
  · have : component iK type p H = retarded type p H := by funext ν; simp [component, k0]
    rw [this]; exact ⟨hr.continuousOn, hr.continuousOn⟩
  by_cases k1 : iK = 1
  · have : component iK type p H = fun ν => (starRingEnd ℂ) (retarded type p H ν) := by
      funext ν; simp [component, k1]
    rw [this]; exact ⟨ha.continuousOn, ha.continuousOn⟩
  have : component iK type p H = keldysh type p H := by funext ν; simp [component, k0, k1]
  rw [this]
  constructor
  · refine ContinuousOn.congr (f := fun ν => (-1 : ℂ) * (retarded type p H ν - (starRingEnd ℂ) (retarded type p H ν)))
      (continuous_const.mul (hr.sub ha)).continuousOn fun ν hν => ?_
    rw [keldysh_eq type ht, sgn_below (lt_of_le_of_lt hν h3)]; norm_num
  · refine ContinuousOn.congr (f := fun ν => (1 : ℂ) * (retarded type p H ν - (starRingEnd ℂ) (retarded type p H ν)))
      (continuous_const.mul (hr.sub ha)).continuousOn fun ν hν => ?_
    rw [keldysh_eq type ht, sgn_above (lt_of_lt_of_le h4 hν)]; norm_num

/-- C129: on the Keldysh contour the correction is the contribution of the frequencies outside of the box to the loop
integral, for the retarded and the Keldysh component of the self-energy, one spin component or the sum over spins, at
zero temperature and for a vertex that is constant there. -/
theorem c129_loop (p : Propagator.Par) (H vmin vmax : ℝ) (hyb : 0 < p.Gam + p.Lam) (h0 : vmin ≤ 0)
    (h1 : vmin < p.eps + H) (h2 : p.eps + H < vmax) (h3 : vmin < p.mu) (h4 : p.mu < vmax)
    (type : Char) (ht : type = 'g' ∨ type = 's') (Γ : LoopVertex) (V : Nat → Nat → ℝ → ℂ)
    (hV : Settled Γ vmin vmax V) (allSpins : Bool) (iK : Nat) (hK : iK < 2) :
    IsTail (fun ν => Loop.closeSecond (propMatrix type p H ν) (fun c => spinSum allSpins fun s => V s c ν) 0
        (if iK = 0 then 1 else 0)) vmin vmax
      (loopKeldysh Γ vmin vmax (p.eps + H : ℝ) ((p.Gam + p.Lam) / 2) type iK 0 allSpins) := by
  have t := fun k hk => c129_keldysh p H vmin vmax hyb h0 h1 h2 h3 h4 type ht k hk
  have c := fun k => cont_comp p H vmin vmax hyb h3 h4 type ht k
  set x := fun j => factor Γ ((tailComponents iK).getD j 0) 0 allSpins with hx
  have m := fun j k => (continuousOn_const (c := x j) (s := Set.Iic vmin)).mul (c k).1
  have m' := fun j k => (continuousOn_const (c := x j) (s := Set.Ici vmax)).mul (c k).2
  have s := isTail_add (isTail_add ((t 0 (by decide)).smul (x 0)) ((t 1 (by decide)).smul (x 1)) (m 0 0) (m' 0 0)
    (m 1 1) (m' 1 1)) ((t 2 (by decide)).smul (x 2)) ((m 0 0).add (m 1 1)) ((m' 0 0).add (m' 1 1)) (m 2 2) (m' 2 2)
  refine isTail_congr s fun ν hν => ?_
  have hs : ∀ c, (spinSum allSpins fun s => V s c ν) = factor Γ c 0 allSpins := by
    intro c
    simp only [spinSum, factor, hV 0 c ν hν, hV 1 c ν hν]
    cases allSpins <;> simp
    ring
  simp only [hs]
  have i2 : iK = 0 ∨ iK = 1 := by omega
  rcases i2 with rfl | rfl <;>
  · simp only [hx, component, tailComponents, Loop.closeSecond, Fin.sum_univ_two, propMatrix, Keldysh.Prop2.matrix]
    simp [Loop.leg]
    ring

/-- Other kinds of propagator have no tail correction. -/
theorem c129_other (Γ : LoopVertex) (vmin vmax : ℝ) (eps : ℂ) (Δ : ℝ) (type : Char) (h : type ≠ 'g' ∧ type ≠ 's')
    (iK ispin : Nat) (allSpins phs : Bool) :
    loopKeldysh Γ vmin vmax eps Δ type iK ispin allSpins = 0 ∧ loopMatsubara phs Γ vmin vmax eps Δ type ispin allSpins = 0 := by
  simp [loopKeldysh, loopMatsubara, selfKeldysh, selfPHS, selfNoPHS, h.1, h.2]

/-- The propagator or single-scale propagator at imaginary frequency. -/
noncomputable def imaginary (phs : Bool) (type : Char) (p : Propagator.Par) (H ν : ℝ) : ℂ :=
  if type = 'g' then prop2 phs p H ν else single2 phs p H ν

/-- C129: at imaginary frequencies the value used for the tails is the contribution of the frequencies outside the
box to the integral of the loop integrand with vertex 1. -/
theorem c129_matsubara (phs : Bool) (p : Propagator.Par) (H vmin vmax : ℝ) (hyb : 0 ≤ p.Gam + p.Lam) (h0 : vmin < 0)
    (h1 : 0 < vmax) (type : Char) (ht : type = 'g' ∨ type = 's') (eps : ℂ) (he : phs = false → eps = (p.eps + H : ℝ)) :
    IsTail (matsubaraIntegrand phs (imaginary phs type p H) fun _ => 1) vmin vmax
      (if phs then (selfPHS vmin vmax ((p.Gam + p.Lam) / 2) type : ℂ)
        else selfNoPHS vmin vmax eps ((p.Gam + p.Lam) / 2) type) := by
  set Δ : ℝ := (p.Gam + p.Lam) / 2 with hΔ
  have dp : 0 ≤ Δ := by rw [hΔ]; linarith
  have ha : |vmin| = -vmin := abs_of_neg h0
  have gs : ¬ ('s' = 'g') := by decide
  cases phs with
  | true =>
    have r1 : 0 < vmax + (Δ : ℂ).re := by simp; linarith
    have r2 : 0 < -vmin + (Δ : ℂ).re := by simp; linarith
    have q1 : 0 < vmax + Δ := by linarith
    have q2 : 0 < -vmin + Δ := by linarith
    rcases ht with rfl | rfl
    · have t := tail_single (f := matsubaraIntegrand true (imaginary true 'g' p H) fun _ => 1) (c := -1) r1 r2
        (fun v hv => by
          simp only [matsubaraIntegrand, imaginary, if_true, mul_one]
          rw [prop2_phs_pos (by linarith), ← hΔ]; ring)
        (fun v hv => by
          simp only [matsubaraIntegrand, imaginary, if_true, mul_one]
          rw [prop2_phs_neg (by linarith), ← hΔ, one_div_neg_eq_neg_one_div]; push_cast; ring)
      convert t using 1
      simp only [if_true, selfPHS, ha]
      rw [Real.log_div q2.ne' q1.ne']
      rw [← ofReal_add, ← ofReal_add, ← ofReal_log q2.le, ← ofReal_log q1.le]
      push_cast; ring
    · have t := tail_square (f := matsubaraIntegrand true (imaginary true 's' p H) fun _ => 1) (c := 1 / 2) (d := -1 / 2) r1 r2
        (fun v hv => by
          simp only [matsubaraIntegrand, imaginary, if_true, if_neg gs, mul_one]
          rw [single2_phs_eq, prop2_phs_pos (by linarith), Tails.sign_pos (by linarith), ← hΔ, one_div_mul_one_div_rev]
          norm_num; ring)
        (fun v hv => by
          simp only [matsubaraIntegrand, imaginary, if_true, if_neg gs, mul_one]
          rw [single2_phs_eq, prop2_phs_neg (by linarith), Tails.sign_neg (by linarith), ← hΔ, one_div_neg_eq_neg_one_div]
          push_cast; norm_num; ring)
      convert t using 1
      simp only [if_true, if_neg gs, selfPHS]
      push_cast
      have n1 : (vmax : ℂ) + Δ ≠ 0 := by rw [← ofReal_add]; exact ofReal_ne_zero.mpr q1.ne'
      have n2 : -(vmin : ℂ) + Δ ≠ 0 := by rw [← ofReal_neg, ← ofReal_add]; exact ofReal_ne_zero.mpr q2.ne'
      ring
  | false =>
    obtain rfl := he rfl
    set e : ℝ := p.eps + H with hee
    have r1 : 0 < vmax + ((Δ : ℂ) + I * e).re := by simp; linarith
    have r2 : 0 < -vmin + ((Δ : ℂ) - I * e).re := by simp; linarith
    have R1 := re_pos r1 le_rfl
    have R2 := re_pos r2 le_rfl
    have pos : ∀ v, 0 < v → prop2 false p H v = -I * (1 / ((v : ℂ) + ((Δ : ℂ) + I * e))) := by
      intro v hv
      rw [prop2_pos hv, ← hΔ]
      rw [show ((v : ℂ) + (Δ : ℂ) + I * (p.eps + H)) = (v : ℂ) + ((Δ : ℂ) + I * e) by rw [hee]; push_cast; ring]
      rw [one_div, mul_inv, inv_I, one_div]
    have neg : ∀ v, 0 < v → prop2 false p H (-v) = I * (1 / ((v : ℂ) + ((Δ : ℂ) - I * e))) := by
      intro v hv
      rw [prop2_neg (by linarith), ← hΔ]
      rw [show (-((-v : ℝ) : ℂ) + (Δ : ℂ) - I * (p.eps + H)) = (v : ℂ) + ((Δ : ℂ) - I * e) by rw [hee]; push_cast; ring]
      rw [one_div, mul_inv, inv_neg, inv_I, neg_neg, one_div]
    rcases ht with rfl | rfl
    · have t := tail_single (f := matsubaraIntegrand false (imaginary false 'g' p H) fun _ => 1) (c := -I) r1 r2
        (fun v hv => by
          simp only [matsubaraIntegrand, imaginary, if_true, mul_one, Bool.false_eq_true, if_false]
          rw [pos v (by linarith)])
        (fun v hv => by
          simp only [matsubaraIntegrand, imaginary, if_true, mul_one, Bool.false_eq_true, if_false]
          rw [neg v (by linarith)]; ring)
      convert t using 1
      simp only [selfNoPHS, if_true, ha, Bool.false_eq_true, if_false]
      rw [← log_quot R2 R1]
      congr 1; congr 1; congr 1 <;> ring
    · have t := tail_square (f := matsubaraIntegrand false (imaginary false 's' p H) fun _ => 1) (c := I / 2) (d := -I / 2) r1 r2
        (fun v hv => by
          simp only [matsubaraIntegrand, imaginary, if_neg gs, mul_one, Bool.false_eq_true, if_false]
          rw [single2_eq, pos v (by linarith), Tails.sign_pos (by linarith), ← one_div_mul_one_div]
          push_cast
          linear_combination (-0.5 * I * (1 / ((v : ℂ) + ((Δ : ℂ) + I * e))) * (1 / ((v : ℂ) + ((Δ : ℂ) + I * e)))) * I_mul_I)
        (fun v hv => by
          simp only [matsubaraIntegrand, imaginary, if_neg gs, mul_one, Bool.false_eq_true, if_false]
          rw [single2_eq, neg v (by linarith), Tails.sign_neg (by linarith), ← one_div_mul_one_div]
          push_cast
          linear_combination (0.5 * I * (1 / ((v : ℂ) + ((Δ : ℂ) - I * e))) * (1 / ((v : ℂ) + ((Δ : ℂ) - I * e)))) * I_mul_I)
      convert t using 1
      simp only [selfNoPHS, if_neg gs, if_true, Bool.false_eq_true, if_false]
      have e1 : (vmax : ℂ) + I * (e : ℂ) + (Δ : ℂ) = (vmax : ℂ) + ((Δ : ℂ) + I * (e : ℂ)) := by ring
      have e2 : (vmin : ℂ) + I * (e : ℂ) - (Δ : ℂ) = -(((-vmin : ℝ) : ℂ) + ((Δ : ℂ) - I * (e : ℂ))) := by push_cast; ring
      rw [e1, e2, one_div_neg_eq_neg_one_div]
      ring

/-- C129: with its vertex, for one spin component the correction is the contribution of the frequencies outside of the
box; with the sum over spins the bare vertex of the second spin component is missing. -/
theorem c129_matsubara_loop_partial (phs : Bool) (p : Propagator.Par) (H vmin vmax : ℝ) (hyb : 0 ≤ p.Gam + p.Lam)
    (h0 : vmin < 0) (h1 : 0 < vmax) (type : Char) (ht : type = 'g' ∨ type = 's') (eps : ℂ)
    (he : phs = false → eps = (p.eps + H : ℝ)) (Γ : LoopVertex) (V : Nat → Nat → ℝ → ℂ) (hV : Settled Γ vmin vmax V)
    (allSpins : Bool) :
    IsTail (matsubaraIntegrand phs (imaginary phs type p H) fun ν => spinSum allSpins fun s => V s 0 ν) vmin vmax
      (loopMatsubara phs Γ vmin vmax eps ((p.Gam + p.Lam) / 2) type 0 allSpins
        + (if allSpins then Γ.bare 0 1 else 0) * (if phs then (selfPHS vmin vmax ((p.Gam + p.Lam) / 2) type : ℂ)
          else selfNoPHS vmin vmax eps ((p.Gam + p.Lam) / 2) type)) := by
  have t := (c129_matsubara phs p H vmin vmax hyb h0 h1 type ht eps he).smul
    (factorMatsubara Γ 0 allSpins + if allSpins then Γ.bare 0 1 else 0)
  have t' := isTail_congr (g := matsubaraIntegrand phs (imaginary phs type p H) fun ν => spinSum allSpins fun s => V s 0 ν)
    t (fun ν hν => by
      simp only [matsubaraIntegrand, spinSum, factorMatsubara, hV 0 0 ν hν, hV 1 0 ν hν]
      cases phs <;> cases allSpins <;> simp <;> ring)
  convert t' using 1
  simp only [loopMatsubara]
  ring

/-- The bare interaction and a frequency-independent vertex: the spin sum counts the bare vertex twice instead of
once, and the correction of a particle-hole asymmetric system is twice what it should be. -/
theorem c129_spin_sum_refuted : ∃ (p : Propagator.Par) (H vmin vmax : ℝ) (Γ : LoopVertex) (V : Nat → Nat → ℝ → ℂ),
    0 < p.Gam + p.Lam ∧ vmin = -vmax ∧ 0 < vmax ∧ (∀ c, Γ.bare c 1 = -Γ.bare c 0) ∧ Settled Γ vmin vmax V ∧
    ¬ IsTail (matsubaraIntegrand false (imaginary false 'g' p H) fun ν => spinSum true fun s => V s 0 ν) vmin vmax
      (loopMatsubara false Γ vmin vmax (p.eps + H : ℝ) ((p.Gam + p.Lam) / 2) 'g' 0 true) := by
  let p : Propagator.Par := ⟨1, 1, 1, 1, 0, 0⟩
  let Γ : LoopVertex := ⟨fun _ s => if s = 0 then 1 else -1, fun _ _ => 0⟩
  refine ⟨p, 0, -1, 1, Γ, fun s c _ => Γ.bare c s + Γ.same c s, by norm_num [p], by norm_num, by norm_num,
    fun c => by norm_num [Γ], fun s c ν _ => rfl, fun h => ?_⟩
  have h' := c129_matsubara_loop_partial false p 0 (-1) 1 (by norm_num [p]) (by norm_num) (by norm_num) 'g' (.inl rfl)
    (p.eps + 0 : ℝ) (fun _ => rfl) Γ (fun s c _ => Γ.bare c s + Γ.same c s) (fun s c ν _ => rfl) true
  have e := h.unique h'
  have e2 : selfNoPHS (-1) 1 (p.eps + 0 : ℝ) ((p.Gam + p.Lam) / 2) 'g' = 0 := by
    have h3 : Γ.bare 0 1 = -1 := by norm_num [Γ]
    rw [h3] at e
    simp only [Bool.false_eq_true, if_false, if_true] at e
    have := add_eq_left.mp e.symm
    simpa using this
  simp only [selfNoPHS, if_true, p] at e2
  norm_num at e2
  -- `log ((2 - I) / (2 + I)) = 0` would make the two equal
  have e3 := congrArg Complex.exp e2
  have n : (2 + I : ℂ) ≠ 0 := fun h => by have := congrArg Complex.re h; simp at this
  have n' : (2 - I : ℂ) ≠ 0 := fun h => by have := congrArg Complex.re h; simp at this
  rw [show (1 : ℂ) - I + 1 = 2 - I by ring, show (1 : ℂ) + I + 1 = 2 + I by ring] at e3
  rw [exp_log (div_ne_zero n' n), exp_zero, div_eq_one_iff_eq n] at e3
  have := congrArg Complex.im e3
  norm_num at this

/-- A case in which the correction does not vanish: a Lorentzian level at 1/2 in the box `[-2, 1]`. -/
example : IsTail (component 0 's' ⟨1, 1/2, 1, 0, 0, 0⟩ 0) (-2) 1
    (selfKeldysh 0 (-2) 1 ((1 / 2 + 0 : ℝ) : ℂ) ((1 + 1) / 2) 's') ∧
    selfKeldysh 0 (-2) 1 ((1 / 2 + 0 : ℝ) : ℂ) ((1 + 1) / 2) 's' ≠ 0 := by
  refine ⟨c129_keldysh ⟨1, 1/2, 1, 0, 0, 0⟩ 0 (-2) 1 (by norm_num) (by norm_num) (by norm_num) (by norm_num) (by norm_num)
    (by norm_num) 's' (.inr rfl) 0 (by norm_num), fun h => ?_⟩
  have gs : ¬ ('s' = 'g') := by decide
  simp only [selfKeldysh, if_true, if_neg gs] at h
  have n : (-I / 2 : ℂ) ≠ 0 := by simp
  have h2 := (mul_eq_zero.mp h).resolve_left n
  rw [sub_eq_zero] at h2
  have h3 := congrArg (fun z : ℂ => 1 / z) h2
  simp only [one_div_one_div] at h3
  have := congrArg Complex.re h3
  norm_num at this

end Verif.DiagTails
