import Verif.Sde.Versions
import Verif.Sde.CasesImag

/-! C161: the versions of the Schwinger–Dyson equation. -/
namespace Verif.Sde.Imag
open Verif.Symmetries Verif.ImagFlow
open Verif.Freqs (Ch Fr)

section
variable {𝕜 : Type} [RCLike 𝕜]

theorem realPart_limit {f : ℕ → 𝕜} {a : 𝕜} (h : Filter.Tendsto f Filter.atTop (nhds a)) :
    Filter.Tendsto (fun N => realPart (f N)) Filter.atTop (nhds (realPart a)) := by
  have hc : Continuous fun x : 𝕜 => realPart x := by
    unfold realPart
    exact (continuous_id.add (RCLike.continuous_conj (K := 𝕜))).const_smul _
  exact (hc.tendsto a).comp h

theorem split_limit (u : Setup 𝕜) {f : ℕ → ℤ → 𝕜} {a : ℤ → 𝕜} {v : ℤ}
    (h : ∀ x, x = v ∨ x = u.ends.1 ∨ x = u.ends.2 → Filter.Tendsto (fun N => f N x) Filter.atTop (nhds (a x))) :
    Filter.Tendsto (fun N => split (withPos u N) (f N) v) Filter.atTop (nhds (split u a v)) := by
  show Filter.Tendsto (fun N => split u (f N) v) Filter.atTop (nhds (split u a v))
  unfold split
  split
  · exact h v (Or.inl rfl)
  · exact (h v (Or.inl rfl)).sub (realPart_limit (((h _ (Or.inr (Or.inl rfl))).add (h _ (Or.inr (Or.inr rfl)))).const_smul _))

theorem split_add (u : Setup 𝕜) (a b : ℤ → 𝕜) (v : ℤ) : split u (fun x => a x + b x) v = split u a v + split u b v := by
  unfold split
  split
  · rfl
  · simp only [realPart, smul_add, star_add]; ring

/-- The value of the self-energy with complete sums. -/
noncomputable def exact (u : Setup 𝕜) (w : 𝕜) (σ : SF 𝕜) (g : (Fin 4 → ℤ) → 𝕜) : SF 𝕜 :=
  split u fun v => kappa u.core * whole (lineG u.core u.Λ σ) u.core.ph w g v

variable {u : Setup 𝕜} {w : 𝕜} {σ : SF 𝕜}

theorem split_congr (u : Setup 𝕜) {a b : ℤ → 𝕜} {v : ℤ} (h : ∀ x, x = v ∨ x = u.ends.1 ∨ x = u.ends.2 → a x = b x) :
    split u a v = split u b v := by
  unfold split
  split
  · exact h v (Or.inl rfl)
  · simp only [h v (Or.inl rfl), h _ (Or.inr (Or.inl rfl)), h _ (Or.inr (Or.inr rfl))]

omit [RCLike 𝕜] in
theorem odd_of {u : Setup 𝕜} (ho : Odd u.ends.1 ∧ Odd u.ends.2) {v : ℤ} (hv : Odd v) {x : ℤ}
    (hx : x = v ∨ x = u.ends.1 ∨ x = u.ends.2) : ∃ m, x = 2 * m + 1 := by
  rcases hx with rfl | rfl | rfl
  · exact hv
  · exact ho.1
  · exact ho.2

theorem exact_add (ho : Odd u.ends.1 ∧ Odd u.ends.2) (hG : Decays (lineG u.core u.Λ σ)) {g g' : (Fin 4 → ℤ) → 𝕜} (hg : ∃ B, ∀ ν, ‖g ν‖ ≤ B) (hg' : ∃ B, ∀ ν, ‖g' ν‖ ≤ B) {v : ℤ} (hv : Odd v) :
    exact u w σ (fun ν => g ν + g' ν) v = exact u w σ g v + exact u w σ g' v := by
  unfold exact
  rw [← split_add]
  refine split_congr u fun x hx => ?_
  obtain ⟨m, rfl⟩ := odd_of ho hv hx
  rw [whole_add hG _ _ hg hg', mul_add]

/-- C161: the self-energy from the bubble in each of the three channels, with the same vertex, tends to the same value when
the range of the frequency sums grows. -/
theorem c161_channels_partial (ho : Odd u.ends.1 ∧ Odd u.ends.2) (hG : Decays (lineG u.core u.Λ σ)) {Γ : VF 𝕜}
    (hΓ : GoodV u.core.ph Γ) (hB : Bounded Γ) (c : Ch) {v : ℤ} (hv : Odd v) :
    Filter.Tendsto (fun N : ℕ => closed (withPos u N) (bareU w) σ Γ c v) Filter.atTop
      (nhds (exact u w σ (Γ false c 0 Imag.k0) v)) := by
  have hh : Γ true = Γ false := hΓ.same true
  have hb : ∀ c, ∃ B, ∀ ν, ‖Γ false c 0 Imag.k0 ν‖ ≤ B := fun c => by
    obtain ⟨B, hB⟩ := hB
    exact ⟨B, fun ν => hB _ _ _ _ _⟩
  have h2 : ∀ a b c d, Γ false .t 0 Imag.k0 ![a, b, c, d] = Γ false .t 0 Imag.k0 ![b, a, d, c] := by
    intro a b c d
    have h1 := hΓ.sym.crossIn false .t 0 Imag.k0 ![a, b, c, d] (by decide)
    have h2 := hΓ.sym.crossOut (xor false (sideFlip .t (crossed .t) swapIn)) (crossed .t) 1 Imag.k0 ![a, b, d, c] (by decide)
    simp only [Imag.comp_swapIn, Imag.comp_swapOut] at h1 h2
    have k1 : Imag.k0 ∘ swapIn = Imag.k0 := rfl
    have k2 : Imag.k0 ∘ swapOut = Imag.k0 := rfl
    rw [k1] at h1
    rw [k2] at h2
    rw [h1, h2]
    have kc : crossed (crossed Ch.t) = Ch.t := rfl
    rw [kc, ← mul_assoc]
    have hx : ∀ b : Bool, Γ b = Γ false := fun b => by cases b <;> simp [hh]
    rw [hx]
    simp
  refine split_limit u fun x hx => ?_
  obtain ⟨m, rfl⟩ := odd_of ho hv hx
  cases c
  · exact raw_limit_a u w σ hh hG m (hb _)
  · exact raw_limit_p u w σ hh hG m (hb _)
  · exact raw_limit_t u w σ hh hG m (hb _) h2

/-- C161: versions 1 and 2 of the Schwinger–Dyson equation tend to the same self-energy when the range `POSINTRANGE` of the
frequency sums grows (missing: they are not equal at any given range, see `c161_refuted`). -/
theorem c161_versions_partial (ho : Odd u.ends.1 ∧ Odd u.ends.2) (hG : Decays (lineG u.core u.Λ σ))
    (hw : GoodV u.core.ph (bareU w)) {V : VF 𝕜} (hV : GoodV u.core.ph V) (hB : Bounded V) {v : ℤ} (hv : Odd v) :
    ∃ s : 𝕜, Filter.Tendsto (fun N : ℕ => dynamic true (withPos u N) (bareU w) σ V v) Filter.atTop (nhds s) ∧
      Filter.Tendsto (fun N : ℕ => dynamic false (withPos u N) (bareU w) σ V v) Filter.atTop (nhds s) := by
  obtain ⟨B, hB⟩ := hB
  have b0 : Bounded (bareU w) := ⟨‖w‖, fun h c s α ν => by simp only [bareU]; split <;> simp⟩
  have b1 : Bounded (bareU w + V) := ⟨‖w‖ + B, fun h c s α ν => by
    refine (norm_add_le _ _).trans (add_le_add ?_ (hB _ _ _ _ _))
    simp only [bareU]; split <;> simp⟩
  have b2 : Bounded (full (bareU w) V) := ⟨‖w‖ + (B + B + B), fun h c s α ν => by
    refine (norm_add_le _ _).trans (add_le_add ?_ ((norm_add_le _ _).trans (add_le_add ((norm_add_le _ _).trans
      (add_le_add (hB _ _ _ _ _) (hB _ _ _ _ _))) (hB _ _ _ _ _))))
    simp only [bareU]; split <;> simp⟩
  have g1 := GoodV.add hw hV
  have g2 := full_good hw hV
  have L := fun c => c161_channels_partial (w := w) ho hG g1 b1 c hv
  have L0 := c161_channels_partial (w := w) ho hG hw b0 .a hv
  have F := fun c => c161_channels_partial (w := w) ho hG g2 b2 c hv
  have hb : ∀ c, ∃ B, ∀ ν, ‖V false c 0 Imag.k0 ν‖ ≤ B := fun c => ⟨B, fun ν => hB _ _ _ _ _⟩
  have hc : ∃ B, ∀ ν : Fin 4 → ℤ, ‖(fun _ => w : (Fin 4 → ℤ) → 𝕜) ν‖ ≤ B := ⟨‖w‖, fun _ => le_rfl⟩
  have add2 : ∀ {g g' : (Fin 4 → ℤ) → 𝕜}, (∃ B, ∀ ν, ‖g ν‖ ≤ B) → (∃ B, ∀ ν, ‖g' ν‖ ≤ B) →
      ∃ B, ∀ ν, ‖g ν + g' ν‖ ≤ B := by
    rintro g g' ⟨A, hA⟩ ⟨B, hB⟩
    exact ⟨A + B, fun ν => (norm_add_le _ _).trans (add_le_add (hA _) (hB _))⟩
  have x1 : ∀ c, exact u w σ ((bareU w + V) false c 0 Imag.k0) v = exact u w σ (fun _ => w) v +
      exact u w σ (V false c 0 Imag.k0) v := fun c => exact_add ho hG hc (hb c) hv
  have x0 : exact u w σ (bareU w false .a 0 Imag.k0) v = exact u w σ (fun _ => w) v := rfl
  have x2 : ∀ c, exact u w σ (full (bareU w) V false c 0 Imag.k0) v = exact u w σ (fun _ => w) v +
      (exact u w σ (V false .a 0 Imag.k0) v + exact u w σ (V false .p 0 Imag.k0) v +
        exact u w σ (V false .t 0 Imag.k0) v) := by
    intro c
    rw [← exact_add ho hG (hb _) (hb _) hv, ← exact_add ho hG (add2 (hb _) (hb _)) (hb _) hv,
      ← exact_add ho hG hc (add2 (add2 (hb _) (hb _)) (hb _)) hv]
    rfl
  refine ⟨exact u w σ (full (bareU w) V false .a 0 Imag.k0) v, ?_, ?_⟩
  · have := (((L .a).add (L .p)).add (L .t)).sub (L0.const_smul (2 : ℝ))
    have e : exact u w σ ((bareU w + V) false .a 0 Imag.k0) v + exact u w σ ((bareU w + V) false .p 0 Imag.k0) v +
        exact u w σ ((bareU w + V) false .t 0 Imag.k0) v - (2 : ℝ) • exact u w σ (bareU w false .a 0 Imag.k0) v =
        exact u w σ (full (bareU w) V false .a 0 Imag.k0) v := by
      rw [x1, x1, x1, x0, x2, two_smul]; ring
    rw [e] at this
    exact this
  · have := ((F .a).add (F .p)).const_smul (0.5 : ℝ)
    have e : (0.5 : ℝ) • (exact u w σ (full (bareU w) V false .a 0 Imag.k0) v +
        exact u w σ (full (bareU w) V false .p 0 Imag.k0) v) = exact u w σ (full (bareU w) V false .a 0 Imag.k0) v := by
      rw [x2 .p, ← x2 .a, ← two_smul ℝ, smul_smul]; norm_num
    rw [e] at this
    exact this

end

/-! ### Sums of finite range -/

/-- A propagator of short range with the symmetry of a propagator. -/
noncomputable def short (v : ℤ) : ℂ :=
  if v = 1 ∨ v = -1 then 1 else if v = 3 then -Complex.I else if v = -3 then Complex.I else 0

/-- Computation with this propagator, `POSINTRANGE` equal to 1. -/
noncomputable def shortSetup : Setup ℂ := ⟨⟨1, 1, false, ⟨fun _ v _ => short v, fun _ _ _ => 0⟩⟩, 0, 1, (1, 1)⟩

theorem window_a0 (c : Ch) (h : c ≠ .p) : Imag.window 1 c 0 = {-1, 1} := by
  cases c
  · decide
  · exact absurd rfl h
  · decide

theorem window_a2 (c : Ch) (h : c ≠ .p) : Imag.window 1 c (-2) = {-1, 1, 3} := by
  cases c
  · decide
  · exact absurd rfl h
  · decide

theorem short_raw : raw shortSetup 1 0 (bareU 1) .a 1 = -3 ∧ raw shortSetup 1 0 (bareU 1) .p 1 = -3 + 2 * Complex.I ∧
    raw shortSetup 1 0 (bareU 1) .t 1 = -3 := by
  have hI : Finset.Icc (-((1 : ℕ) : ℤ)) (((1 : ℕ) : ℤ) - 1) = {-1, 0} := by decide
  have hp0 : Imag.window 1 .p 0 = {-1, 1} := by decide
  have hp2 : Imag.window 1 .p 2 = {-1, 1, 3} := by decide
  refine ⟨?_, ?_, ?_⟩
  · refine (raw_a shortSetup.core 1 (bareU 1) short 1 rfl).trans ?_
    simp only [shortSetup, hI]
    rw [Finset.sum_pair (by decide)]
    norm_num [window_a0 .a (by decide), window_a2 .a (by decide), kappa, diagram, short, Imag.pairOf, bareU]
  · refine (raw_p shortSetup.core 1 (bareU 1) short 1 rfl).trans ?_
    simp only [shortSetup, hI]
    rw [Finset.sum_pair (by decide)]
    norm_num [hp0, hp2, kappa, diagram, short, Imag.pairOf, bareU]
    ring
  · refine (raw_t shortSetup.core 1 (bareU 1) short 1 rfl (fun _ _ _ _ => rfl)).trans ?_
    simp only [shortSetup, hI]
    rw [Finset.sum_pair (by decide)]
    norm_num [window_a0 .t (by decide), window_a2 .t (by decide), kappa, diagram, short, Imag.pairOf, bareU]

theorem short_good (ph : Bool) (hp : ph = false) : GoodLines ph shortSetup.core.lines := by
  subst hp
  constructor
  · intro Λ v s
    simp only [shortSetup, Bool.false_eq_true, if_false, one_mul, short]
    split_ifs <;> first | omega | simp
  · intro Λ v s
    simp [shortSetup]

theorem bareU_good (w : ℝ) : GoodV false (bareU (w : ℂ)) where
  sym := by
    constructor
    · intro h c s α ν hs
      have : s = 0 ∨ s = 1 := by omega
      rcases this with rfl | rfl <;> simp [bareU]
    · intro h c s α ν hs
      have : s = 0 ∨ s = 1 := by omega
      rcases this with rfl | rfl <;> simp [bareU]
    · intro h; cases h
    · intro _ h c s α ν hs
      have : s = 0 ∨ s = 1 := by omega
      rcases this with rfl | rfl <;> simp [bareU]
    · intro h; cases h
    · intro _ h c s α ν hs
      have : s = 0 ∨ s = 1 := by omega
      rcases this with rfl | rfl <;> simp [bareU]
    · intro _ h; cases h
  same _ := rfl

/-- C161, refuted: with sums of finite range the versions of the equation give different self-energies, already for the
bare vertex and with propagators that have the required symmetry. -/
theorem c161_refuted : ∃ (u : Setup ℂ), Ready u (bareU 1) ∧ Odd u.ends.1 ∧ Odd u.ends.2 ∧ Decays (lineG u.core u.Λ 0) ∧
    dynamic true u (bareU 1) 0 0 1 ≠ dynamic false u (bareU 1) 0 0 1 := by
  obtain ⟨ha, hp, ht⟩ := short_raw
  have c : ∀ c, closed shortSetup (bareU 1) 0 (bareU 1) c 1 = raw shortSetup 1 0 (bareU 1) c 1 -
      realPart ((0.5 : ℝ) • (raw shortSetup 1 0 (bareU 1) c 1 + raw shortSetup 1 0 (bareU 1) c 1)) := fun c => rfl
  have hf : full (bareU (1 : ℂ)) 0 = bareU 1 := by
    funext h c s α ν; simp [full, bareU]
  have e3 : realPart ((0.5 : ℝ) • ((-3 : ℂ) + -3)) = -3 := by
    rw [realPart, ← two_smul ℝ, smul_smul]
    norm_num
  have e4 : realPart ((0.5 : ℝ) • ((-3 + 2 * Complex.I : ℂ) + (-3 + 2 * Complex.I))) = -3 := by
    rw [realPart, ← two_smul ℝ, smul_smul]
    norm_num
    ring
  refine ⟨shortSetup, ⟨by have := bareU_good 1; rw [Complex.ofReal_one] at this; exact this, short_good false rfl⟩, ⟨0, rfl⟩, ⟨0, rfl⟩, ?_, ?_⟩
  · refine ⟨3, fun n => ?_⟩
    show ‖short (2 * n + 1)‖ ≤ _
    have hb : ‖short (2 * n + 1)‖ ≤ 1 := by
      unfold short
      split_ifs <;> simp
    by_cases h : |((2 * n + 1 : ℤ) : ℝ)| ≤ 3
    · have h0 : (0 : ℝ) < |((2 * n + 1 : ℤ) : ℝ)| := abs_pos.2 (by exact_mod_cast (by omega : (2 * n + 1 : ℤ) ≠ 0))
      refine hb.trans ?_
      rw [le_div_iff₀ h0]; linarith
    · have h' : ¬ |(2 * n + 1 : ℤ)| ≤ 3 := fun h' => h (by exact_mod_cast h')
      rw [abs_le] at h'
      have : short (2 * n + 1) = 0 := by
        unfold short
        rw [if_neg (by omega), if_neg (by omega), if_neg (by omega)]
      rw [this, norm_zero]
      positivity
  · simp only [dynamic, equation1, equation2, hf, add_zero, if_true, Bool.false_eq_true, if_false, Pi.add_apply, Pi.sub_apply,
      Pi.smul_apply, c, ha, hp, ht, e3, e4]
    intro h
    have := congrArg Complex.im h
    norm_num at this

/-- C161: the propagators of the code with `REG == 2` decay like this when the imaginary part of the self-energy has the sign
of a causal function. -/
theorem c161_decays (p : Propagator.Par) (hT : 0 < p.T) (hg : 0 ≤ p.Gam) {Λ : ℝ} (hΛ : 0 ≤ Λ) {σ : SF ℂ}
    (hσ : ∀ n : ℤ, (σ (2 * n + 1)).im * (2 * n + 1 : ℤ) ≤ 0) (pos : Nat) (ph : Bool) :
    Decays (lineG ⟨pos, p.T, ph, linesC .r2 p⟩ Λ σ) := by
  refine ⟨1 / (Real.pi * p.T), fun n => ?_⟩
  have hc : 0 < Real.pi * p.T := mul_pos Real.pi_pos hT
  set v : ℤ := 2 * n + 1 with hv
  have hv0 : (v : ℝ) ≠ 0 := by exact_mod_cast (by omega : v ≠ 0)
  have hpos : 0 < |(v : ℝ)| := abs_pos.2 hv0
  show ‖Propagator.gM2 false (Real.pi * p.T) { p with Lam := Λ, v := v } (σ v)‖ ≤ _
  simp only [Propagator.gM2, Propagator.g0Minv, Bool.false_eq_true, if_false]
  set D : ℂ := _ - σ v with hD
  have him : D.im = v * (Real.pi * p.T) + p.Gam * 0.5 * Propagator.sign v + Λ * 0.5 * Propagator.sign v - (σ v).im := by
    rw [hD]
    simp
  have hle : |(v : ℝ)| * (Real.pi * p.T) ≤ |D.im| := by
    have hs := hσ n
    rw [← hv] at hs
    rcases lt_or_gt_of_ne hv0 with h | h
    · have hsgn : Propagator.sign (v : ℝ) = -1 := by simp [Propagator.sign, h, not_lt.2 h.le]
      have : 0 ≤ (σ v).im := by
        by_contra hn
        push Not at hn
        nlinarith [mul_pos_of_neg_of_neg hn h]
      rw [him, hsgn, abs_of_neg h]
      refine le_trans ?_ (neg_le_abs _)
      nlinarith
    · have hsgn : Propagator.sign (v : ℝ) = 1 := by simp [Propagator.sign, h, not_lt.2 h.le]
      have : (σ v).im ≤ 0 := by
        by_contra hn
        push Not at hn
        nlinarith [mul_pos hn h]
      rw [him, hsgn, abs_of_pos h]
      refine le_trans ?_ (le_abs_self _)
      nlinarith
  have hD1 : |(v : ℝ)| * (Real.pi * p.T) ≤ ‖D‖ := hle.trans (Complex.abs_im_le_norm D)
  rw [norm_div, norm_one, div_div, mul_comm (Real.pi * p.T)]
  exact one_div_le_one_div_of_le (mul_pos hpos hc) hD1

/-- Non-vacuity: the level in the middle of the interaction, no reducible vertex, no imaginary part of the self-energy. -/
example (T Gam Λ U : ℝ) (hT : 0 < T) (hG : 0 ≤ Gam) (hΛ : 0 ≤ Λ) : ∃ s : ℂ,
    Filter.Tendsto (fun N : ℕ => dynamic true (withPos (halfC 1 T Gam Λ U (-5, 5)) N) (bareU ((-U : ℝ) : ℂ)) 0 0 3) Filter.atTop
      (nhds s) ∧
    Filter.Tendsto (fun N : ℕ => dynamic false (withPos (halfC 1 T Gam Λ U (-5, 5)) N) (bareU ((-U : ℝ) : ℂ)) 0 0 3) Filter.atTop
      (nhds s) :=
  c161_versions_partial (u := halfC 1 T Gam Λ U (-5, 5)) ⟨⟨-3, rfl⟩, ⟨2, rfl⟩⟩
    (c161_decays ⟨0, -(U / 2), Gam, T, 0, 0⟩ hT hG hΛ (σ := 0) (fun n => by simp) 1 false) (bareU_good _)
    (GoodV.zero (fun h => by cases h)) ⟨0, fun _ _ _ _ _ => by simp⟩ ⟨1, rfl⟩

end Verif.Sde.Imag
