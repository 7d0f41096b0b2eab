import Verif.Converge.Loop
import Mathlib.Analysis.SpecialFunctions.ImproperIntegrals
import Mathlib.MeasureTheory.Measure.Haar.NormedSpace

/-! One step of the parquet iteration for two states that are close to each other. -/
namespace Verif.Converge
open Verif.Symmetries Verif.Heredity Verif.Propagator Verif.Weak Verif.Sde MeasureTheory
open Verif.Invariant (VF SF bub full others pair)
open Verif.Spectrum (half)
open Verif.Freqs (Ch)

theorem total_eq {a : ℝ} (ha : 1 < a) : total a = 2 / (a - 1) := by
  have h0 : (0 : ℝ) < a - 1 := by linarith
  unfold total
  have e : ∀ s : ℝ, (1 + ‖s‖) ^ (-a) = (fun x : ℝ => (1 + x) ^ (-a)) |s| := fun s => rfl
  simp only [e]
  rw [integral_comp_abs (f := fun x : ℝ => (1 + x) ^ (-a))]
  have := integral_Ioi_rpow_of_lt (a := -a) (by linarith) (c := 1) one_pos
  have sh : ∫ x in Set.Ioi (0 : ℝ), (1 + x) ^ (-a) = ∫ x in Set.Ioi (1 : ℝ), x ^ (-a) := by
    have := (measurePreserving_add_left (volume : Measure ℝ) 1).setIntegral_preimage_emb (measurableEmbedding_addLeft 1) (fun x : ℝ => x ^ (-a)) (Set.Ioi 1)
    rwa [Set.preimage_const_add_Ioi, sub_self] at this
  rw [sh, this, Real.one_rpow]
  have : -a + 1 ≠ 0 := by linarith
  field_simp
  ring

theorem total32 : total (3 / 2) = 4 := by rw [total_eq (by norm_num)]; norm_num

theorem total54 : total (5 / 4) = 8 := by rw [total_eq (by norm_num)]; norm_num

section
variable {u : Setup} {bare : VF} {σ σ' : SF} {V V' : VF} {t d : ℝ}

theorem mean_le {x y : ℂ} {b : ℝ} (hx : ‖x‖ ≤ b) (hy : ‖y‖ ≤ b) : ‖(0.5 : ℝ) • (x + y)‖ ≤ b := by
  rw [norm_smul]
  have := norm_add_le x y
  have : ‖(0.5 : ℝ)‖ = 1 / 2 := by norm_num
  rw [this]
  linarith

/-- What two states and the bare vertex have to satisfy. -/
structure Two (u : Setup) (bare : VF) (t d : ℝ) (σ σ' : SF) (V V' : VF) : Prop where
  width : 0 < u.p.Gam + u.p.Lam
  pos : 0 < t
  weak : 3 * 10 ^ 7 * t ≤ half u.p
  mb : MeasV bare
  sb : SmallV t bare
  m : Measurable σ.1
  m' : Measurable σ'.1
  n : NearR (half u.p / 2) σ.1 fun _ => ((u.U / 2 : ℝ) : ℂ)
  n' : NearR (half u.p / 2) σ'.1 fun _ => ((u.U / 2 : ℝ) : ℂ)
  mV : MeasV V
  mV' : MeasV V'
  s : SmallV t V
  s' : SmallV t V'
  dS : NearR (d * half u.p / t) σ.1 σ'.1
  dV : NearV d V V'

namespace Two
variable (H : Two u bare t d σ σ' V V')
include H

theorem hh : 0 < half u.p := Weak.half_pos H.width

theorem d0 : 0 ≤ d := (norm_nonneg _).trans (H.dV true .a 0 (fun _ => true) 0)

theorem symm : Two u bare t d σ' σ V' V :=
  ⟨H.width, H.pos, H.weak, H.mb, H.sb, H.m', H.m, H.n', H.n, H.mV', H.mV, H.s', H.s, fun v => by rw [norm_sub_rev]; exact H.dS v,
    fun h c s α ν => by rw [norm_sub_rev]; exact H.dV h c s α ν⟩

theorem lG : Line (8 / half u.p) (half u.p) (u.p.eps + u.U / 2) (lineG u.p σ.at) := line H.width H.m H.n

theorem lG' : Line (8 / half u.p) (half u.p) (u.p.eps + u.U / 2) (lineG u.p σ'.at) := line H.width H.m' H.n'

theorem dG : NearG (32 * (d / t) / half u.p) (half u.p) (u.p.eps + u.U / 2) (lineG u.p σ.at) (lineG u.p σ'.at) := by
  have := line_near H.width H.n H.n' H.dS
  have h0 := H.hh
  have e : 32 * (d * half u.p / t) / half u.p ^ 2 = 32 * (d / t) / half u.p := by field_simp
  rwa [e] at this

theorem mG (a b c d : Bool) : Measurable fun q : ℝ × ℝ => pair u.p σ a b c d q.1 q.2 := pair_meas H.lG.meas a b c d

theorem m_full : MeasV (full bare V) := fun h c s α => by
  unfold full
  exact (H.mb ..).add (((H.mV ..).add (H.mV ..)).add (H.mV ..))

theorem m_left : MeasV (bare + others V) := fun h c s α => by
  refine Measurable.add (H.mb h c s α) ?_
  cases c <;> exact (H.mV ..).add (H.mV ..)

theorem s_full : SmallV (4 * t) (full bare V) := fun h c s α ν => by
  unfold full
  have a := norm_add_le (bare false c s α ν) (V false .a s α ν + V false .p s α ν + V false .t s α ν)
  have b := norm_add₃_le (a := V false .a s α ν) (b := V false .p s α ν) (c := V false .t s α ν)
  linarith [H.sb false c s α ν, H.s false .a s α ν, H.s false .p s α ν, H.s false .t s α ν]

theorem s_left : SmallV (3 * t) (bare + others V) := fun h c s α ν => by
  have a := norm_add_le (bare h c s α ν) (others V h c s α ν)
  have b : ‖others V h c s α ν‖ ≤ 2 * t := by
    cases c <;> refine (norm_add_le _ _).trans ?_ <;> linarith [H.s false .a s α ν, H.s false .p s α ν, H.s false .t s α ν]
  show ‖bare h c s α ν + others V h c s α ν‖ ≤ 3 * t
  linarith [H.sb h c s α ν]

theorem d_full : NearV (3 * d) (full bare V) (full bare V') := fun h c s α ν => by
  have e : full bare V h c s α ν - full bare V' h c s α ν = (V false .a s α ν - V' false .a s α ν) + (V false .p s α ν - V' false .p s α ν) +
    (V false .t s α ν - V' false .t s α ν) := by unfold full; ring
  rw [e]
  refine (norm_add₃_le).trans ?_
  linarith [H.dV false .a s α ν, H.dV false .p s α ν, H.dV false .t s α ν]

theorem d_left : NearV (2 * d) (bare + others V) (bare + others V') := fun h c s α ν => by
  have e : (bare + others V) h c s α ν - (bare + others V') h c s α ν = others V h c s α ν - others V' h c s α ν := by
    show bare h c s α ν + others V h c s α ν - (bare h c s α ν + others V' h c s α ν) = _
    ring
  rw [e]
  have k : ∀ A B A' B' : ℂ, ‖A - A'‖ ≤ d → ‖B - B'‖ ≤ d → ‖A + B - (A' + B')‖ ≤ 2 * d := fun A B A' B' a b => by
    rw [add_sub_add_comm]
    exact (norm_add_le _ _).trans (by linarith)
  cases c
  · exact k _ _ _ _ (H.dV false .p s α ν) (H.dV false .t s α ν)
  · exact k _ _ _ _ (H.dV false .a s α ν) (H.dV false .t s α ν)
  · exact k _ _ _ _ (H.dV false .a s α ν) (H.dV false .p s α ν)

theorem ratio : t / half u.p ≤ 1 / (3 * 10 ^ 7) := by
  have h0 := H.hh
  have := H.weak
  rw [div_le_div_iff₀ h0 (by norm_num)]
  linarith

theorem bse_meas : MeasV (computeBSE u bare σ V) := fun h c s α => by
  have a := bub_meas H.m_left H.m_full H.mG h c s α
  have b := bub_meas H.m_full H.m_left H.mG h c s α
  exact (a.add b).const_smul (0.5 : ℝ)

theorem bse_small : SmallV t (computeBSE u bare σ V) := fun h c s α ν => by
  have h0 := H.hh
  have t0 := H.pos
  have b1 := bub_le h0 H.m_left H.m_full H.s_left H.s_full H.lG h c s α ν
  have b2 := bub_le h0 H.m_full H.m_left H.s_full H.s_left H.lG h c s α ν
  have f0 := fall_nonneg (half u.p) (u.p.eps + u.U / 2) c ν
  have f1 := fall_le (half u.p) (u.p.eps + u.U / 2) c ν
  have e1 : 128 * total (3 / 2) * half u.p * size (8 / half u.p) 0 (3 * t) (3 * t) (4 * t) (4 * t) = 3145728 * (t / half u.p) * t := by
    rw [total32, size]; field_simp; ring
  have e2 : 128 * total (3 / 2) * half u.p * size (8 / half u.p) 0 (4 * t) (4 * t) (3 * t) (3 * t) = 3145728 * (t / half u.p) * t := by
    rw [total32, size]; field_simp; ring
  rw [e1] at b1
  rw [e2] at b2
  have r := H.ratio
  have le : 3145728 * (t / half u.p) * t * fall (half u.p) (u.p.eps + u.U / 2) c ν ≤ t := by
    have : 3145728 * (t / half u.p) * t ≤ 1 * t := by
      refine mul_le_mul_of_nonneg_right ?_ t0.le
      refine (mul_le_mul_of_nonneg_left r (by norm_num)).trans (by norm_num)
    have p : 0 ≤ 3145728 * (t / half u.p) * t := by positivity
    nlinarith
  exact mean_le (b1.trans le) (b2.trans le)

theorem bse_near : NearV (d / 2) (computeBSE u bare σ V) (computeBSE u bare σ' V') := fun h c s α ν => by
  have h0 := H.hh
  have t0 := H.pos
  have d0 := H.d0
  have H' := H.symm
  have b1 := bub_near h0 H.m_left H'.m_left H.m_full H'.m_full H.s_left H'.s_left H.d_left H.s_full H'.s_full H.d_full H.lG H.lG' H.dG h c s α ν
  have b2 := bub_near h0 H.m_full H'.m_full H.m_left H'.m_left H.s_full H'.s_full H.d_full H.s_left H'.s_left H.d_left H.lG H.lG' H.dG h c s α ν
  have f0 := fall_nonneg (half u.p) (u.p.eps + u.U / 2) c ν
  have f1 := fall_le (half u.p) (u.p.eps + u.U / 2) c ν
  have e1 : 128 * total (3 / 2) * half u.p * size (8 / half u.p) (32 * (d / t) / half u.p) (3 * t) (2 * d) (4 * t) (3 * d) = 14811136 * (t / half u.p) * d := by
    rw [total32, size]; field_simp; ring
  have e2 : 128 * total (3 / 2) * half u.p * size (8 / half u.p) (32 * (d / t) / half u.p) (4 * t) (3 * d) (3 * t) (2 * d) = 14811136 * (t / half u.p) * d := by
    rw [total32, size]; field_simp; ring
  rw [e1] at b1
  rw [e2] at b2
  have r := H.ratio
  have le : 14811136 * (t / half u.p) * d * fall (half u.p) (u.p.eps + u.U / 2) c ν ≤ d / 2 := by
    have : 14811136 * (t / half u.p) * d ≤ 1 / 2 * d := by
      refine mul_le_mul_of_nonneg_right ?_ d0
      refine (mul_le_mul_of_nonneg_left r (by norm_num)).trans (by norm_num)
    have p : 0 ≤ 14811136 * (t / half u.p) * d := by positivity
    nlinarith
  have e3 : computeBSE u bare σ V h c s α ν - computeBSE u bare σ' V' h c s α ν =
      (0.5 : ℝ) • ((bub (bare + others V) (full bare V) (pair u.p σ) h c s α ν - bub (bare + others V') (full bare V') (pair u.p σ') h c s α ν) +
        (bub (full bare V) (bare + others V) (pair u.p σ) h c s α ν - bub (full bare V') (bare + others V') (pair u.p σ') h c s α ν)) := by
    simp only [computeBSE, Pi.smul_apply, Pi.add_apply, ← smul_sub]
    congr 1
    ring
  rw [e3]
  exact mean_le (b1.trans le) (b2.trans le)

/-! ### Self-energy -/

section
variable {Γ Γ' : VF} (mΓ : MeasV Γ) (mΓ' : MeasV Γ') (sΓ : SmallV (4 * t) Γ) (sΓ' : SmallV (4 * t) Γ') (dΓ : NearV (3 * d) Γ Γ')

include mΓ in
theorem mean_meas : MeasV (meanBub bare Γ (pair u.p σ)) := fun h c s α =>
  ((bub_meas H.mb mΓ H.mG h c s α).add (bub_meas mΓ H.mb H.mG h c s α)).const_smul (0.5 : ℝ)

include mΓ sΓ in
theorem mean_small (h : Bool) (c : Ch) (s : ℕ) (α : Fin 4 → Bool) (ν : Fin 4 → ℝ) :
    ‖meanBub bare Γ (pair u.p σ) h c s α ν‖ ≤ 1048576 * t ^ 2 / half u.p * fall (half u.p) (u.p.eps + u.U / 2) c ν := by
  have h0 := H.hh
  have b1 := bub_le h0 H.mb mΓ H.sb sΓ H.lG h c s α ν
  have b2 := bub_le h0 mΓ H.mb sΓ H.sb H.lG h c s α ν
  have e1 : 128 * total (3 / 2) * half u.p * size (8 / half u.p) 0 t t (4 * t) (4 * t) = 1048576 * t ^ 2 / half u.p := by
    rw [total32, size]; field_simp; ring
  have e2 : 128 * total (3 / 2) * half u.p * size (8 / half u.p) 0 (4 * t) (4 * t) t t = 1048576 * t ^ 2 / half u.p := by
    rw [total32, size]; field_simp; ring
  rw [e1] at b1
  rw [e2] at b2
  exact mean_le b1 b2

include mΓ mΓ' sΓ sΓ' dΓ in
theorem mean_near (h : Bool) (c : Ch) (s : ℕ) (α : Fin 4 → Bool) (ν : Fin 4 → ℝ) :
    ‖meanBub bare Γ (pair u.p σ) h c s α ν - meanBub bare Γ' (pair u.p σ') h c s α ν‖ ≤
      4587520 * (t / half u.p) * d * fall (half u.p) (u.p.eps + u.U / 2) c ν := by
  have h0 := H.hh
  have t0 := H.pos
  have zb : NearV 0 bare bare := fun h c s α ν => by simp
  have b1 := bub_near h0 H.mb H.mb mΓ mΓ' H.sb H.sb zb sΓ sΓ' dΓ H.lG H.lG' H.dG h c s α ν
  have b2 := bub_near h0 mΓ mΓ' H.mb H.mb sΓ sΓ' dΓ H.sb H.sb zb H.lG H.lG' H.dG h c s α ν
  have e1 : 128 * total (3 / 2) * half u.p * size (8 / half u.p) (32 * (d / t) / half u.p) t 0 (4 * t) (3 * d) = 4587520 * (t / half u.p) * d := by
    rw [total32, size]; field_simp; ring
  have e2 : 128 * total (3 / 2) * half u.p * size (8 / half u.p) (32 * (d / t) / half u.p) (4 * t) (3 * d) t 0 = 4587520 * (t / half u.p) * d := by
    rw [total32, size]; field_simp; ring
  rw [e1] at b1
  rw [e2] at b2
  have e3 : meanBub bare Γ (pair u.p σ) h c s α ν - meanBub bare Γ' (pair u.p σ') h c s α ν =
      (0.5 : ℝ) • ((bub bare Γ (pair u.p σ) h c s α ν - bub bare Γ' (pair u.p σ') h c s α ν) +
        (bub Γ bare (pair u.p σ) h c s α ν - bub Γ' bare (pair u.p σ') h c s α ν)) := by
    simp only [meanBub, Pi.smul_apply, Pi.add_apply, ← smul_sub]
    congr 1
    ring
  rw [e3]
  exact mean_le b1 b2

variable (hph : u.ph = true)
include hph

include mΓ in
theorem closed_meas (c : Ch) : Measurable (closed u bare σ Γ c).1 ∧ Measurable (closed u bare σ Γ c).2 := by
  simp only [closed, split, hph, if_true]
  exact loop_meas (fun s α => H.mean_meas mΓ false c s α) H.lG.meas _ _

include mΓ sΓ in
theorem closed_small (c : Ch) : NearS (1073741824 * t ^ 2 / half u.p) (closed u bare σ Γ c) 0 := by
  have h0 := H.hh
  have z : loopOne (c == .t) u.Δ (fun _ _ _ => 0) (lineG u.p σ.at) = 0 := by
    rw [loopOne_value]
    have : ∀ o i v, Verif.Sde.integral u.Δ (seen (c == .t) fun _ _ _ => 0) (lineG u.p σ.at) o i v = 0 := fun o i v => by
      simp [Verif.Sde.integral, sumK_zero]
    simp only [this, star_zero]
    exact smul_zero _
  have t0 := H.pos
  have := loop_near (c := c) (Γ := meanBub bare Γ (pair u.p σ) false c) (Γ' := fun _ _ _ => 0) h0 (fun s α => H.mean_meas mΓ false c s α) (fun _ _ => measurable_const)
    (fun s α ν => H.mean_small mΓ sΓ false c s α ν) (fun s α ν => by
      have := fall_nonneg (half u.p) (u.p.eps + u.U / 2) c ν
      rw [norm_zero]; positivity) (dg := 1048576 * t ^ 2 / half u.p) (fun s α ν => by
      rw [sub_zero]; exact H.mean_small mΓ sΓ false c s α ν) H.lG H.lG (nearG_refl _) u.Δ
  rw [z] at this
  have e : 16 * total (5 / 4) * half u.p * (8 / half u.p * (1048576 * t ^ 2 / half u.p) + 0 * (1048576 * t ^ 2 / half u.p)) = 1073741824 * t ^ 2 / half u.p := by
    rw [total54]; field_simp; ring
  rw [e] at this
  simp only [closed, split, hph, if_true]
  exact this

include mΓ mΓ' sΓ sΓ' dΓ in
theorem closed_near (c : Ch) : NearS (8992587776 * (t / half u.p) * d) (closed u bare σ Γ c) (closed u bare σ' Γ' c) := by
  have h0 := H.hh
  have t0 := H.pos
  have H' := H.symm
  have := loop_near (c := c) (Γ := meanBub bare Γ (pair u.p σ) false c) (Γ' := meanBub bare Γ' (pair u.p σ') false c) h0 (fun s α => H.mean_meas mΓ false c s α)
    (fun s α => H'.mean_meas mΓ' false c s α)
    (fun s α ν => H.mean_small mΓ sΓ false c s α ν) (fun s α ν => H'.mean_small mΓ' sΓ' false c s α ν)
    (fun s α ν => H.mean_near mΓ mΓ' sΓ sΓ' dΓ false c s α ν) H.lG H.lG' H.dG u.Δ
  have e : 16 * total (5 / 4) * half u.p * (8 / half u.p * (4587520 * (t / half u.p) * d) + 32 * (d / t) / half u.p * (1048576 * t ^ 2 / half u.p)) =
      8992587776 * (t / half u.p) * d := by
    rw [total54]; field_simp; ring
  rw [e] at this
  simp only [closed, split, hph, if_true]
  exact this

end

theorem m_sum : MeasV (bare + V) := fun h c s α => (H.mb h c s α).add (H.mV h c s α)

theorem s_sum : SmallV (4 * t) (bare + V) := fun h c s α ν => by
  have := norm_add_le (bare h c s α ν) (V h c s α ν)
  show ‖bare h c s α ν + V h c s α ν‖ ≤ 4 * t
  linarith [H.sb h c s α ν, H.s h c s α ν, H.pos]

theorem d_sum : NearV (3 * d) (bare + V) (bare + V') := fun h c s α ν => by
  show ‖bare h c s α ν + V h c s α ν - (bare h c s α ν + V' h c s α ν)‖ ≤ 3 * d
  rw [add_sub_add_left_eq_sub]
  linarith [H.dV h c s α ν, H.d0]

theorem s_bare : SmallV (4 * t) bare := fun h c s α ν => by linarith [H.sb h c s α ν, H.pos]

theorem d_bare : NearV (3 * d) bare bare := fun h c s α ν => by
  rw [sub_self, norm_zero]
  linarith [H.d0]

omit H in
theorem combine1 {x1 x2 x3 x4 y1 y2 y3 y4 : ℂ} {b : ℝ} (h1 : ‖x1 - y1‖ ≤ b) (h2 : ‖x2 - y2‖ ≤ b) (h3 : ‖x3 - y3‖ ≤ b) (h4 : ‖x4 - y4‖ ≤ b) :
    ‖x1 + x2 + x3 - (2 : ℝ) • x4 - (y1 + y2 + y3 - (2 : ℝ) • y4)‖ ≤ 5 * b := by
  have e : x1 + x2 + x3 - (2 : ℝ) • x4 - (y1 + y2 + y3 - (2 : ℝ) • y4) = (x1 - y1) + (x2 - y2) + (x3 - y3) - (2 : ℝ) • (x4 - y4) := by
    simp only [Complex.real_smul]; ring
  rw [e]
  have a := norm_sub_le ((x1 - y1) + (x2 - y2) + (x3 - y3)) ((2 : ℝ) • (x4 - y4))
  have b' := norm_add₃_le (a := x1 - y1) (b := x2 - y2) (c := x3 - y3)
  have c : ‖(2 : ℝ) • (x4 - y4)‖ = 2 * ‖x4 - y4‖ := by rw [norm_smul]; norm_num
  rw [c] at a
  linarith

omit H in
theorem combine2 {x1 x2 y1 y2 : ℂ} {b : ℝ} (h1 : ‖x1 - y1‖ ≤ b) (h2 : ‖x2 - y2‖ ≤ b) :
    ‖(0.5 : ℝ) • (x1 + x2) - (0.5 : ℝ) • (y1 + y2)‖ ≤ 5 * b := by
  rw [← smul_sub, add_sub_add_comm]
  have := mean_le h1 h2
  linarith [(norm_nonneg _).trans h1]

variable (hph : u.ph = true)
include hph

omit H hph in
/-- A property of differences of closed diagrams gives one of the whole equation. -/
theorem dynamic_near {u' : Setup} (first : Bool) {b : ℝ} (h1 : ∀ c, NearS b (closed u bare σ (bare + V) c) (closed u' bare σ' (bare + V') c))
    (h2 : ∀ c, NearS b (closed u bare σ bare c) (closed u' bare σ' bare c))
    (h3 : ∀ c, NearS b (closed u bare σ (full bare V) c) (closed u' bare σ' (full bare V') c)) :
    NearS (5 * b) (dynamic first u bare σ V) (dynamic first u' bare σ' V') := fun v => by
  cases first
  · simp only [dynamic, Bool.false_eq_true, if_false, equation2]
    exact ⟨combine2 (h3 .a v).1 (h3 .p v).1, combine2 (h3 .a v).2 (h3 .p v).2⟩
  · simp only [dynamic, if_true, equation1]
    exact ⟨combine1 (h1 .a v).1 (h1 .p v).1 (h1 .t v).1 (h2 .a v).1, combine1 (h1 .a v).2 (h1 .p v).2 (h1 .t v).2 (h2 .a v).2⟩

theorem dynamic_meas (first : Bool) : Measurable (dynamic first u bare σ V).1 ∧ Measurable (dynamic first u bare σ V).2 := by
  have c1 := fun c => H.closed_meas H.m_sum hph c
  have c2 := fun c => H.closed_meas H.mb hph c
  have c3 := fun c => H.closed_meas H.m_full hph c
  cases first
  · simp only [dynamic, Bool.false_eq_true, if_false, equation2]
    exact ⟨((c3 .a).1.add (c3 .p).1).const_smul (0.5 : ℝ), ((c3 .a).2.add (c3 .p).2).const_smul (0.5 : ℝ)⟩
  · simp only [dynamic, if_true, equation1]
    exact ⟨((((c1 .a).1.add (c1 .p).1).add (c1 .t).1).sub ((c2 .a).1.const_smul (2 : ℝ))),
      ((((c1 .a).2.add (c1 .p).2).add (c1 .t).2).sub ((c2 .a).2.const_smul (2 : ℝ)))⟩

omit hph in
theorem sq_small : t ^ 2 / half u.p ≤ half u.p / 10 ^ 14 := by
  have h0 := H.hh
  have t0 := H.pos
  have w := H.weak
  rw [div_le_div_iff₀ h0 (by norm_num)]
  nlinarith

theorem dynamic_tiny (first : Bool) : NearS (half u.p / 1000) (dynamic first u bare σ V) 0 := by
  have h0 := H.hh
  have t0 := H.pos
  have q := H.sq_small
  have le : 5 * (1073741824 * t ^ 2 / half u.p) ≤ half u.p / 1000 := by
    have e : 5 * (1073741824 * t ^ 2 / half u.p) = 5368709120 * (t ^ 2 / half u.p) := by ring
    rw [e]
    linarith
  have c1 := fun c => H.closed_small H.m_sum H.s_sum hph c
  have c2 := fun c => H.closed_small H.mb H.s_bare hph c
  have c3 := fun c => H.closed_small H.m_full H.s_full hph c
  intro v
  have z : ∀ {x1 x2 x3 x4 : ℂ} {b : ℝ}, ‖x1 - 0‖ ≤ b → ‖x2 - 0‖ ≤ b → ‖x3 - 0‖ ≤ b → ‖x4 - 0‖ ≤ b → ‖x1 + x2 + x3 - (2 : ℝ) • x4 - 0‖ ≤ 5 * b :=
    fun h1 h2 h3 h4 => by simpa using combine1 h1 h2 h3 h4
  have z2 : ∀ {x1 x2 : ℂ} {b : ℝ}, ‖x1 - 0‖ ≤ b → ‖x2 - 0‖ ≤ b → ‖(0.5 : ℝ) • (x1 + x2) - 0‖ ≤ 5 * b :=
    fun h1 h2 => by simpa using combine2 h1 h2
  cases first
  · simp only [dynamic, Bool.false_eq_true, if_false, equation2]
    exact ⟨(z2 (c3 .a v).1 (c3 .p v).1).trans le, (z2 (c3 .a v).2 (c3 .p v).2).trans le⟩
  · simp only [dynamic, if_true, equation1]
    exact ⟨(z (c1 .a v).1 (c1 .p v).1 (c1 .t v).1 (c2 .a v).1).trans le, (z (c1 .a v).2 (c1 .p v).2 (c1 .t v).2 (c2 .a v).2).trans le⟩

theorem dynamic_small (first : Bool) : NearS (half u.p / 2) (dynamic first u bare σ V) 0 := fun v => by
  have h0 := H.hh
  have := H.dynamic_tiny hph first v
  exact ⟨this.1.trans (by linarith), this.2.trans (by linarith)⟩

theorem dynamic_close (first : Bool) : NearS (d / 2 * half u.p / t) (dynamic first u bare σ V) (dynamic first u bare σ' V') := by
  have h0 := H.hh
  have t0 := H.pos
  have d0 := H.d0
  have H' := H.symm
  have n := dynamic_near first (fun c => H.closed_near H.m_sum H'.m_sum H.s_sum H'.s_sum H.d_sum hph c)
    (fun c => H.closed_near H.mb H.mb H.s_bare H.s_bare H.d_bare hph c)
    (fun c => H.closed_near H.m_full H'.m_full H.s_full H'.s_full H.d_full hph c)
  have le : 5 * (8992587776 * (t / half u.p) * d) ≤ d / 2 * half u.p / t := by
    rw [le_div_iff₀ t0]
    have q := H.sq_small
    have e : 5 * (8992587776 * (t / half u.p) * d) * t = 44962938880 * (t ^ 2 / half u.p) * d := by ring
    rw [e]
    have : 44962938880 * (t ^ 2 / half u.p) ≤ half u.p / 2 := by linarith
    have := mul_le_mul_of_nonneg_right this d0
    linarith
  exact fun v => ⟨(n v).1.trans le, (n v).2.trans le⟩

end Two
end

end Verif.Converge
