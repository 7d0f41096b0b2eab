import Verif.Loop.Props
import Verif.Util.Loops
import Mathlib.Analysis.Complex.Basic
import Mathlib.Analysis.Calculus.Deriv.Mul
import Mathlib.Analysis.Calculus.FDeriv.Bilinear
import Mathlib.Analysis.Normed.Operator.BoundedLinearMaps
import Mathlib.Tactic.Module
import Mathlib.Tactic.Abel
import Mathlib.Tactic.Positivity
import Mathlib.Data.List.Perm.Basic

/-! C93 (integral of the loop), C94 (the call as a whole), C95 (Schwinger–Dyson combinations). -/
namespace Verif.Loop

open Keldysh MeasureTheory

/-! ### C93 -/

/-- Integral over a symmetric domain of the integrand averaged over both signs of the frequency. -/
theorem integral_average (f : ℝ → ℂ) (L : ℝ) (hf : IntervalIntegrable f volume (-L) L) :
    ∫ x in (-L)..L, (f x + f (-x)) * (1/2) = ∫ x in (-L)..L, f x := by
  have hg : IntervalIntegrable (fun x => f (-x)) volume (-L) L := by
    have := (IntervalIntegrable.iff_comp_neg).mp hf
    simpa using this.symm
  rw [intervalIntegral.integral_mul_const, intervalIntegral.integral_add hf hg,
    intervalIntegral.integral_comp_neg, neg_neg]
  ring

/-- C93: the three stored components are `i/(2π)` times the integral of the plain (not averaged) integrand
over the symmetric interval `|v'| ≤ 10 Δ + |v|`: the vanishing component `(1,1)`, the Keldysh component
`(0,0)`, and, as retarded component, the complex conjugate of the advanced one. -/
theorem c93_integral (F : ℝ → Fin 4 → ℂ) (Δ v : ℝ)
    (hF : ∀ c, IntervalIntegrable (fun x => F x c) volume (-(Δ * 10 + |v|)) (Δ * 10 + |v|)) :
    let L := Δ * 10 + |v|
    let sg := fun c => Complex.I / (2 * Real.pi) * ∫ x in (-L)..L, F x c
    keldyshLoop F Δ v = (star (sg 1), sg 0, sg 3) := by
  intro L sg
  have hp : prefactor = Complex.I / (2 * Real.pi) := by
    have : (Real.pi : ℂ) ≠ 0 := by exact_mod_cast Real.pi_ne_zero
    unfold prefactor
    field_simp
    simp
  have key : ∀ c, prefactor * ∫ vp in (-Δ * 10 - |v|)..(Δ * 10 + |v|), integrand F vp c = sg c := by
    intro c
    have e : -Δ * 10 - |v| = -L := by simp only [L]; ring
    rw [e, hp]
    show _ * ∫ x in (-L)..L, (F x c + F (-x) c) * (1/2) = _
    rw [integral_average (fun x => F x c) L (hF c)]
  simp only [keldyshLoop, key]

/-- C93: if the advanced component is the conjugate of the retarded one, the stored value is the retarded
component itself. -/
theorem c93_retarded (F : ℝ → Fin 4 → ℂ) (Δ v : ℝ)
    (hF : ∀ c, IntervalIntegrable (fun x => F x c) volume (-(Δ * 10 + |v|)) (Δ * 10 + |v|))
    (hcausal : Complex.I / (2 * Real.pi) * ∫ x in (-(Δ * 10 + |v|))..(Δ * 10 + |v|), F x 1
      = star (Complex.I / (2 * Real.pi) * ∫ x in (-(Δ * 10 + |v|))..(Δ * 10 + |v|), F x 2)) :
    (keldyshLoop F Δ v).1 = Complex.I / (2 * Real.pi) * ∫ x in (-(Δ * 10 + |v|))..(Δ * 10 + |v|), F x 2 := by
  rw [c93_integral F Δ v hF]
  simp only
  rw [hcausal, star_star]

/-- A frequency-independent integrand meets the hypotheses and gives a non-zero Keldysh component. -/
example : (keldyshLoop (fun _ _ => 1) 1 0).2.1 = 10 * Complex.I / Real.pi := by
  rw [c93_integral _ 1 0 (fun _ => intervalIntegrable_const)]
  simp only [intervalIntegral.integral_const]
  have : (Real.pi : ℂ) ≠ 0 := by exact_mod_cast Real.pi_ne_zero
  field_simp
  norm_num

/-! ### C94 -/

/-- The actions of the parallel loop: each of the `nfer * nin` iterations writes three components. -/
def actions (nfer nin : Nat) : List (Nat × Nat) :=
  (List.range (nfer * nin)).flatMap fun i => (List.range 3).map fun k => (i, k)

theorem mem_actions {nfer nin i k : Nat} : (i, k) ∈ actions nfer nin ↔ i < nfer * nin ∧ k < 3 := by
  simp [actions]

theorem write_self (value : SE → Nat → Nat → Option (Nat → ℂ)) (nin : Nat) (m : Mem) (a : Nat × Nat) :
    (write value nin m a).self = m.self := by
  unfold write
  dsimp only
  split <;> rfl

theorem write_asymp (value : SE → Nat → Nat → Option (Nat → ℂ)) (nin : Nat) (m : Mem) (a : Nat × Nat) :
    (write value nin m a).temp.asymp = m.temp.asymp := by
  unfold write
  dsimp only
  split <;> rfl

/-- Entry of the local copy after all writes of a list. -/
theorem writes_spec (value : SE → Nat → Nat → Option (Nat → ℂ)) (nin : Nat) (order : List (Nat × Nat)) (m : Mem)
    (k iv i : Nat) (hi : i < nin) :
    (writes value nin order m).self = m.self ∧ (writes value nin order m).temp.asymp = m.temp.asymp ∧
    (writes value nin order m).temp.val k iv i =
      if (iv * nin + i, k) ∈ order then
        (match value m.self iv i with
          | none => m.temp.val k iv i
          | some f => f k)
      else m.temp.val k iv i := by
  induction order generalizing m with
  | nil => simp [writes]
  | cons a l ih =>
    obtain ⟨h1, h2, h3⟩ := ih (write value nin m a)
    have e : writes value nin (a :: l) m = writes value nin l (write value nin m a) := rfl
    rw [e, h1, h2, h3, write_self, write_asymp]
    refine ⟨rfl, rfl, ?_⟩
    have hval : (write value nin m a).temp.val k iv i =
        if a = (iv * nin + i, k) then
          (match value m.self iv i with
            | none => m.temp.val k iv i
            | some f => f k)
        else m.temp.val k iv i := by
      obtain ⟨s, c⟩ := a
      by_cases ha : (s, c) = (iv * nin + i, k)
      · obtain ⟨rfl, rfl⟩ := Prod.mk.inj ha
        have d1 : (iv * nin + i) / nin = iv := by
          rw [Nat.add_comm, Nat.add_mul_div_right _ _ (by omega), Nat.div_eq_of_lt hi, Nat.zero_add]
        have d2 : iv * nin + i - iv * nin = i := by omega
        simp only [write, d1, d2, if_true]
        cases value m.self iv i <;> simp [SE.set]
      · rw [if_neg ha]
        simp only [write]
        cases hv : value m.self (s / nin) (s - s / nin * nin) with
        | none => rfl
        | some f =>
          simp only [SE.set]
          rw [if_neg]
          rintro ⟨rfl, rfl, rfl⟩
          apply ha
          have := Nat.div_mul_le_self s nin
          refine Prod.ext ?_ rfl
          show s = s / nin * nin + (s - s / nin * nin)
          omega
    rw [hval]
    by_cases hl : (iv * nin + i, k) ∈ l
    · simp only [hl, if_true, List.mem_cons, or_true]
      cases value m.self iv i with
      | none => simp
      | some f => rfl
    · simp only [hl, if_false, List.mem_cons, or_false]
      by_cases ha : a = (iv * nin + i, k)
      · rw [if_pos ha, if_pos ha.symm]
      · rw [if_neg ha, if_neg (fun h => ha h.symm)]

/-- What a call is meant to compute for one entry: the value obtained from the self-energy *before* the call,
or, at an infinite frequency, the old entry. -/
def intended (value : SE → Nat → Nat → Option (Nat → ℂ)) (self : SE) (k iv i : Nat) : ℂ :=
  match value self iv i with
  | none => self.val k iv i
  | some f => f k

theorem temp_spec (value : SE → Nat → Nat → Option (Nat → ℂ)) {nfer nin : Nat} {order : List (Nat × Nat)}
    (ho : order.Perm (actions nfer nin)) (self : SE) {k iv i : Nat} (hk : k < 3) (hiv : iv < nfer)
    (hi : i < nin) :
    (writes value nin order (Mem.mk self self)).temp.val k iv i = intended value self k iv i ∧
    (writes value nin order (Mem.mk self self)).temp.asymp = self.asymp := by
  obtain ⟨-, h2, h3⟩ := writes_spec value nin order (Mem.mk self self) k iv i hi
  refine ⟨?_, h2⟩
  rw [h3, if_pos]
  · rfl
  · rw [ho.mem_iff, mem_actions]
    refine ⟨?_, hk⟩
    calc iv * nin + i < iv * nin + nin := by omega
      _ = (iv + 1) * nin := by ring
      _ ≤ nfer * nin := Nat.mul_le_mul_right _ hiv

/-- C94: with particle-hole symmetry, whatever the order of the writes of all threads, every entry of the
result is the value computed from the self-energy as it was before the call (even if the propagator refers
to the very object that is overwritten), with the sign of the version. -/
theorem c94_schedule (version : Bool) (value : SE → Nat → Nat → Option (Nat → ℂ)) (nfer nin : Nat)
    (order : List (Nat × Nat)) (ho : order.Perm (actions nfer nin)) (self : SE) {k iv i : Nat} (hk : k < 3)
    (hiv : iv < nfer) (hi : i < nin) :
    (loop version true value nfer nin order self).val k iv i
      = (if version then -1 else 1) * intended value self k iv i := by
  simp only [loop, SE.scale, if_true]
  rw [(temp_spec value ho self hk hiv hi).1]
  ring

/-- C94: without particle-hole symmetry the retarded entries and the asymptotic value add up to the computed
value, the other components are the computed ones, and the asymptotic value is the real part of the mean of
the computed values at the two ends of the frequency axis. -/
theorem c94_split (version : Bool) (value : SE → Nat → Nat → Option (Nat → ℂ)) (nfer nin : Nat)
    (order : List (Nat × Nat)) (ho : order.Perm (actions nfer nin)) (self : SE) {k iv i : Nat} (hk : k < 3)
    (hiv : iv < nfer) (hi : i < nin) :
    let r := loop version false value nfer nin order self
    let s : ℂ := if version then -1 else 1
    (if k = 0 then r.val k iv i + r.asymp else r.val k iv i) = s * intended value self k iv i ∧
    r.asymp = (((s * intended value self 0 0 0 + s * intended value self 0 (nfer - 1) 0) / 2).re : ℂ) := by
  intro r s
  have hnin : 0 < nin := by omega
  have hnf : 0 < nfer := by omega
  have t0 := (temp_spec value ho self (k := 0) (iv := 0) (i := 0) (by omega) hnf hnin).1
  have t1 := (temp_spec value ho self (k := 0) (iv := nfer - 1) (i := 0) (by omega) (by omega) hnin).1
  have tk := (temp_spec value ho self hk hiv hi).1
  have hs : ∀ x : ℂ, x * (if version = true then (-1 : ℂ) else 1) = s * x := fun x => mul_comm _ _
  constructor
  · simp only [r, loop, Bool.false_eq_true, if_false, split, SE.scale, t0, t1, tk, hs]
    by_cases hk0 : k = 0
    · subst hk0
      simp [hiv, hi]
    · simp [hk0]
  · simp only [r, loop, Bool.false_eq_true, if_false, split, SE.scale, t0, t1, hs]

/-- C94: with particle-hole symmetry and version 0 the asymptotic value of the object passed in is kept. -/
theorem c94_asymptotic_partial (value : SE → Nat → Nat → Option (Nat → ℂ)) (nfer nin : Nat)
    (order : List (Nat × Nat)) (ho : order.Perm (actions nfer nin)) (self : SE) (hn : 0 < nfer) (hi : 0 < nin) :
    (loop false true value nfer nin order self).asymp = self.asymp := by
  simp only [loop, SE.scale, if_true, Bool.false_eq_true, if_false]
  rw [(temp_spec value ho self (k := 0) (iv := 0) (i := 0) (by omega) hn hi).2, mul_one]

/-- Version 1 changes the sign of the asymptotic value it was passed, and of the entries at infinite
frequencies, neither of which it computes. -/
theorem c94_asymptotic_refuted (value : SE → Nat → Nat → Option (Nat → ℂ)) (nfer nin : Nat)
    (order : List (Nat × Nat)) (ho : order.Perm (actions nfer nin)) (self : SE) (hn : 0 < nfer) (hi : 0 < nin) :
    (loop true true value nfer nin order self).asymp = -self.asymp ∧
    ∀ k < 3, ∀ iv < nfer, ∀ i < nin, value self iv i = none →
      (loop true true value nfer nin order self).val k iv i = -self.val k iv i := by
  constructor
  · simp only [loop, SE.scale, if_true]
    rw [(temp_spec value ho self (k := 0) (iv := 0) (i := 0) (by omega) hn hi).2]
    ring
  · intro k hk iv hiv i hi' hv
    rw [c94_schedule true value nfer nin order ho self hk hiv hi']
    simp [intended, hv]

/-- The order in which OpenMP hands out the iterations is one of the orders considered, and so is its
reverse; the value computed may depend on the self-energy itself. -/
example : (actions 3 2).Perm (actions 3 2) ∧ (actions 3 2).reverse.Perm (actions 3 2) ∧
    (loop false true (fun s iv _ => if iv = 0 then none else some fun k => s.val k (iv - 1) 0 + 1) 3 2
      (actions 3 2).reverse (SE.mk (fun _ iv _ => iv) 5)).val 0 2 1 = 2 := by
  refine ⟨List.Perm.refl _, List.reverse_perm _, ?_⟩
  rw [c94_schedule false _ 3 2 _ (List.reverse_perm _) _ (by omega) (by omega) (by omega)]
  norm_num [intended]

/-! ### C95 -/

section Equation
variable {V S : Type} [AddCommGroup V] [Module ℝ V] [AddCommGroup S] [Module ℝ S]

/-- C95: version 1 counts the second-order term once and each reducible part in its own channel once,
provided the second-order term is the same whichever channel it is computed in. -/
theorem c95_v1 (D : Ch → V →ₗ[ℝ] S) (bare : V) (γ : Ch → V) (h : ∀ r, D r bare = D .a bare) :
    equationV1 D bare γ = D .a bare + D .a (γ .a) + D .p (γ .p) + D .t (γ .t) := by
  simp only [equationV1, map_add, h .p, h .t]
  module

/-- C95: in general the error of version 1 is the spread of the second-order term between the channels. -/
theorem c95_v1_error (D : Ch → V →ₗ[ℝ] S) (bare : V) (γ : Ch → V) :
    equationV1 D bare γ - (D .a bare + D .a (γ .a) + D .p (γ .p) + D .t (γ .t))
      = (D .p bare - D .a bare) + (D .t bare - D .a bare) := by
  simp only [equationV1, map_add]
  module

/-- C95: if the loop over the bubble in any channel gives the same contribution of every part of the vertex,
versions 1 and 2 agree and both are the loop over the full vertex. -/
theorem c95_versions (D : Ch → V →ₗ[ℝ] S) (E : V →ₗ[ℝ] S) (bare : V) (γ : Ch → V)
    (h0 : ∀ r, D r bare = E bare) (h : ∀ r s, D r (γ s) = E (γ s)) :
    equationV1 D bare γ = E (bare + γ .a + γ .p + γ .t) ∧
    equationV2 D bare γ = E (bare + γ .a + γ .p + γ .t) := by
  constructor
  · simp only [equationV1, map_add, h0, h]
    module
  · simp only [equationV2, map_add, h0, h]
    module

end Equation

section Diff
variable {V P S : Type} [NormedAddCommGroup V] [NormedSpace ℝ V] [NormedAddCommGroup P] [NormedSpace ℝ P]
  [NormedAddCommGroup S] [NormedSpace ℝ S]

/-- C95: the differentiated equation is the derivative of version 3 along every differentiable flow of
vertex and propagator. -/
theorem c95_derivative (L : Ch → V →L[ℝ] P →L[ℝ] S) (Γ : ℝ → V) (G : ℝ → P) (dΓ : V) (dG : P) (Λ : ℝ)
    (hΓ : HasDerivAt Γ dΓ Λ) (hG : HasDerivAt G dG Λ) :
    HasDerivAt (fun x => equationV3 (fun r => (L r).toLinearMap₁₂) (Γ x) (G x))
      (equationDiff (fun r => (L r).toLinearMap₁₂) (Γ Λ) dΓ (G Λ) dG) Λ := by
  have key : ∀ r, HasDerivAt (fun x => L r (Γ x) (G x)) (L r (Γ Λ) dG + L r dΓ (G Λ)) Λ := by
    intro r
    have h1 : HasDerivAt (fun x => L r (Γ x)) (L r dΓ) Λ := (L r).hasFDerivAt.comp_hasDerivAt Λ hΓ
    have := h1.clm_apply hG
    rwa [add_comm] at this
  have h := ((key .a).add (key .p)).const_smul (0.5 : ℝ)
  refine HasDerivAt.congr_deriv h ?_
  show _ = (0.5 : ℝ) • (L .a (Γ Λ) dG + L .p (Γ Λ) dG + L .a dΓ (G Λ) + L .p dΓ (G Λ))
  congr 1
  abel

end Diff

end Verif.Loop
