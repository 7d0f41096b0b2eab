import Verif.Sde.PropsImag
import Verif.Sde.SpecVersions
import Mathlib.Analysis.RCLike.Basic
import Mathlib.Analysis.PSeries
import Mathlib.Analysis.SpecialFunctions.Pow.NNReal
import Mathlib.Topology.Algebra.InfiniteSum.Order
import Mathlib.Topology.Algebra.InfiniteSum.Ring

/-! The diagrams of the Schwinger–Dyson equation at imaginary frequencies as double sums over two of its three lines, and
the limit of complete sums. -/
set_option linter.unusedSectionVars false
namespace Verif.Sde.Imag
open Verif.Symmetries Verif.ImagFlow
open Verif.Freqs (Ch Fr)
variable {R : Type} [CommRing R] [StarRing R]


theorem inner_a_left (w : R) (Γ : VF R) (P : ℤ → ℤ → R) (v vp y z : ℤ) :
    Imag.inner ⟨bareU w⟩ ⟨Γ⟩ P .a ⟨true, v⟩ ⟨false, vp⟩ ⟨true, v⟩ ⟨false, vp⟩ y z =
      w * P y z * Γ true .a 0 Imag.k0 ![y, vp, v, z] := by
  simp [Imag.inner, Imag.term, Imag.legVal, Fintype.sum_prod_type, bareU]

theorem inner_a_right (w : R) (Γ : VF R) (P : ℤ → ℤ → R) (v vp y z : ℤ) :
    Imag.inner ⟨Γ⟩ ⟨bareU w⟩ P .a ⟨true, v⟩ ⟨false, vp⟩ ⟨true, v⟩ ⟨false, vp⟩ y z =
      w * P y z * Γ false .a 0 Imag.k0 ![v, z, y, vp] := by
  simp [Imag.inner, Imag.term, Imag.legVal, Fintype.sum_prod_type, bareU]; ring

theorem inner_p_left (w : R) (Γ : VF R) (P : ℤ → ℤ → R) (v vp y z : ℤ) :
    Imag.inner ⟨bareU w⟩ ⟨Γ⟩ P .p ⟨true, v⟩ ⟨false, vp⟩ ⟨true, v⟩ ⟨false, vp⟩ y z =
      w * P y z * Γ true .p 0 Imag.k0 ![y, z, v, vp] := by
  simp [Imag.inner, Imag.term, Imag.legVal, Fintype.sum_prod_type, bareU]

theorem inner_p_right (w : R) (Γ : VF R) (P : ℤ → ℤ → R) (v vp y z : ℤ) :
    Imag.inner ⟨Γ⟩ ⟨bareU w⟩ P .p ⟨true, v⟩ ⟨false, vp⟩ ⟨true, v⟩ ⟨false, vp⟩ y z =
      w * P y z * Γ false .p 0 Imag.k0 ![v, vp, y, z] := by
  simp [Imag.inner, Imag.term, Imag.legVal, Fintype.sum_prod_type, bareU]; ring

theorem inner_t_left (w : R) (Γ : VF R) (P : ℤ → ℤ → R) (v vp y z : ℤ) :
    Imag.inner ⟨bareU w⟩ ⟨Γ⟩ P .t ⟨true, vp⟩ ⟨false, v⟩ ⟨true, v⟩ ⟨false, vp⟩ y z +
    Imag.inner ⟨bareU w⟩ ⟨Γ⟩ P .t ⟨true, vp⟩ ⟨false, v⟩ ⟨false, v⟩ ⟨true, vp⟩ y z =
      w * P y z * Γ true .t 0 Imag.k0 ![vp, y, v, z] := by
  simp [Imag.inner, Imag.term, Imag.legVal, Fintype.sum_prod_type, bareU]; ring

theorem inner_t_right (w : R) (Γ : VF R) (P : ℤ → ℤ → R) (v vp y z : ℤ) :
    Imag.inner ⟨Γ⟩ ⟨bareU w⟩ P .t ⟨true, vp⟩ ⟨false, v⟩ ⟨true, v⟩ ⟨false, vp⟩ y z +
    Imag.inner ⟨Γ⟩ ⟨bareU w⟩ P .t ⟨true, vp⟩ ⟨false, v⟩ ⟨false, v⟩ ⟨true, vp⟩ y z =
      w * P y z * Γ false .t 0 Imag.k0 ![z, v, y, vp] := by
  simp [Imag.inner, Imag.term, Imag.legVal, Fintype.sum_prod_type, bareU]; ring

section
variable [Algebra ℝ R] [StarModule ℝ R]

theorem bub_at (u : ImagFlow.Setup R) (L M : VF R) (P : ℤ → ℤ → R) (c : Ch) (s : Nat) (o1 o2 i1 i2 : ℤ) (h : o1 + o2 = i1 + i2) :
    bub u L M P false c s Imag.k0 ![o1, o2, i1, i2] = u.T • (Imag.loopSign c *
      ∑ y ∈ Imag.window u.pos c (Imag.transfer c ![o1, o2, i1, i2]), Imag.inner ⟨L⟩ ⟨M⟩ P c ⟨true, o1⟩ ⟨false, o2⟩
        ⟨s == 0, i1⟩ ⟨s != 0, i2⟩ y (Imag.partner c (Imag.transfer c ![o1, o2, i1, i2]) y)) := by
  show u.T • (Imag.bubble (Imag.finiteTotal u.pos) ⟨L⟩ ⟨M⟩ P).val false c s Imag.k0 ![o1, o2, i1, i2] = _
  rw [Imag.val_pos _ _ _ _ (by simpa using h)]
  rfl

/-- The closed diagram with the two lines of a bubble in channel `a`: outer frequency `v`, frequency `vp` of the line that
closes the loop, frequency `y` of the line parallel to it. -/
def diagram (G : ℤ → R) (ph : Bool) (w : R) (g : (Fin 4 → ℤ) → R) (v vp y : ℤ) : R :=
  G vp * (w * Imag.pairOf ph false G G y (y + vp - v) * (g ![y, vp, v, y + vp - v] + g ![v, y + vp - v, y, vp]))

/-- Prefactor of the closed diagram. -/
noncomputable def kappa (u : ImagFlow.Setup R) : R := -((0.5 * u.T * u.T : ℝ) • (if u.ph then -1 else 1 : R))

variable (u : ImagFlow.Setup R) (w : R) (Γ : VF R) (G : ℤ → R) (v : ℤ)

theorem raw_a (h : Γ true = Γ false) : loopOne false u (((0.5 : ℝ) • (bub u (bareU w) Γ (Imag.pairOf u.ph false G G) + bub u Γ (bareU w) (Imag.pairOf u.ph false G G))) false .a) G v = kappa u *
    ∑ n ∈ Finset.Icc (-(u.pos : ℤ)) (u.pos - 1), ∑ y ∈ Imag.window u.pos .a (2 * n + 1 - v), 
      diagram G u.ph w (Γ false .a 0 Imag.k0) v (2 * n + 1) y := by
  rw [(c160_loop_value false u _ G v).2]
  simp only [seen, Bool.false_eq_true, if_false, Pi.add_apply, Pi.smul_apply, one_mul]
  rw [kappa, neg_mul, Finset.mul_sum, Finset.smul_sum]
  congr 1
  refine Finset.sum_congr rfl fun n _ => ?_
  rw [bub_at _ _ _ _ _ _ _ _ _ _ (by ring), bub_at _ _ _ _ _ _ _ _ _ _ (by ring), ← smul_add, ← mul_add, ← Finset.sum_add_distrib]
  simp only [Imag.loopSign, one_mul, Imag.transfer, Imag.partner]
  simp only [Finset.mul_sum, Finset.smul_sum]
  refine Finset.sum_congr rfl fun y _ => ?_
  simp only [beq_self_eq_true, bne_self_eq_false, inner_a_left, inner_a_right, h, diagram]
  simp only [show ![v, 2 * n + 1, v, 2 * n + 1] 3 = 2 * n + 1 from rfl, show ![v, 2 * n + 1, v, 2 * n + 1] 0 = v from rfl]
  rw [show y + (2 * n + 1 - v) = y + (2 * n + 1) - v by ring]
  simp only [Algebra.smul_def, map_mul, map_neg]
  ring

theorem raw_p (h : Γ true = Γ false) : loopOne false u (((0.5 : ℝ) • (bub u (bareU w) Γ (Imag.pairOf u.ph false G G) + bub u Γ (bareU w) (Imag.pairOf u.ph false G G))) false .p) G v = kappa u *
    ∑ n ∈ Finset.Icc (-(u.pos : ℤ)) (u.pos - 1), ∑ y ∈ Imag.window u.pos .p (2 * n + 1 + v), 
      diagram G u.ph w (Γ false .p 0 Imag.k0) v (2 * n + 1 + v - y) y := by
  rw [(c160_loop_value false u _ G v).2]
  simp only [seen, Bool.false_eq_true, if_false, Pi.add_apply, Pi.smul_apply, one_mul]
  rw [kappa, neg_mul, Finset.mul_sum, Finset.smul_sum]
  congr 1
  refine Finset.sum_congr rfl fun n _ => ?_
  rw [bub_at _ _ _ _ _ _ _ _ _ _ (by ring), bub_at _ _ _ _ _ _ _ _ _ _ (by ring), ← smul_add, ← mul_add, ← Finset.sum_add_distrib]
  simp only [Imag.loopSign, one_mul, Imag.transfer, Imag.partner]
  simp only [Finset.mul_sum, Finset.smul_sum]
  rw [show ![v, 2 * n + 1, v, 2 * n + 1] 0 + ![v, 2 * n + 1, v, 2 * n + 1] 1 = 2 * n + 1 + v from add_comm v (2 * n + 1)]
  refine Finset.sum_congr rfl fun y _ => ?_
  simp only [beq_self_eq_true, bne_self_eq_false, inner_p_left, inner_p_right, h, diagram]
  rw [show y + (2 * n + 1 + v - y) - v = 2 * n + 1 by ring]
  simp only [Algebra.smul_def, map_mul, map_neg, Imag.pairOf, Bool.false_eq_true, if_false]
  ring

theorem raw_t (h : Γ true = Γ false) (h2 : ∀ a b c d, Γ false .t 0 Imag.k0 ![a, b, c, d] = Γ false .t 0 Imag.k0 ![b, a, d, c]) : loopOne true u (((0.5 : ℝ) • (bub u (bareU w) Γ (Imag.pairOf u.ph false G G) + bub u Γ (bareU w) (Imag.pairOf u.ph false G G))) false .t) G v = kappa u *
    ∑ n ∈ Finset.Icc (-(u.pos : ℤ)) (u.pos - 1), ∑ y ∈ Imag.window u.pos .t (2 * n + 1 - v), 
      diagram G u.ph w (Γ false .t 0 Imag.k0) v y (2 * n + 1) := by
  rw [(c160_loop_value true u _ G v).2]
  simp only [seen, if_true, Pi.add_apply, Pi.smul_apply]
  rw [kappa, neg_mul 1, one_mul, ← smul_neg, ← Finset.sum_neg_distrib, neg_mul, Finset.mul_sum, Finset.smul_sum]
  congr 1
  refine Finset.sum_congr rfl fun n _ => ?_
  rw [bub_at _ _ _ _ _ _ _ _ _ _ (by ring), bub_at _ _ _ _ _ _ _ _ _ _ (by ring), bub_at _ _ _ _ _ _ _ _ _ _ (by ring), bub_at _ _ _ _ _ _ _ _ _ _ (by ring)]
  have e : ∀ (a : ℝ) (s A B C D : R), a • (u.T • (s * A) + u.T • (s * B)) + a • (u.T • (s * C) + u.T • (s * D)) = a • u.T • (s * ((A + C) + (B + D))) := by
    intro a s A B C D
    simp only [Algebra.smul_def]; ring
  rw [e, ← Finset.sum_add_distrib, ← Finset.sum_add_distrib, ← Finset.sum_add_distrib]
  simp only [Imag.loopSign, Imag.transfer, Imag.partner]
  simp only [Finset.mul_sum, Finset.smul_sum, ← Finset.sum_neg_distrib]
  rw [show ![2 * n + 1, v, v, 2 * n + 1] 3 - ![2 * n + 1, v, v, 2 * n + 1] 1 = 2 * n + 1 - v from rfl]
  refine Finset.sum_congr rfl fun y _ => ?_
  have e0 : ((0 : ℕ) == 0) = true := rfl
  have e1 : ((0 : ℕ) != 0) = false := rfl
  have e2 : ((1 : ℕ) == 0) = false := rfl
  have e3 : ((1 : ℕ) != 0) = true := rfl
  simp only [e0, e1, e2, e3, inner_t_left, inner_t_right, h, diagram]
  rw [show y + (2 * n + 1 - v) = 2 * n + 1 + y - v by ring, h2 (2 * n + 1 + y - v) v]
  simp only [Algebra.smul_def, map_mul, map_neg, Imag.pairOf, Bool.false_eq_true, if_false]
  ring
end

/-! ### Complete sums -/

section
variable {𝕜 : Type} [RCLike 𝕜]

theorem mem_window {N : Nat} {c : Ch} {w y : ℤ} : y ∈ Imag.window N c w ↔
    (-(2 * N + (w.natAbs : ℤ)) ≤ y ∧ y ≤ 2 * N + (w.natAbs : ℤ)) ∧ y % 2 = 1 ∧ (if c = .p then y - w else y + w) % 2 = 1 ∧
      ¬ (y > 2 * N - 1 ∧ (if c = .p then y - w else y + w) > 2 * N - 1) ∧
      ¬ (y < -(2 * N - 1) ∧ (if c = .p then y - w else y + w) < -(2 * N - 1)) := by
  simp only [Imag.window, Finset.mem_filter, Finset.mem_Icc]

/-- The double sums of the code tend to the complete sum. -/
theorem sum_limit (c : Ch) {q : ℤ → ℤ} (hq : ∀ n, q n % 2 = 0) {f : ℤ → ℤ → 𝕜} {a : 𝕜}
    (h : HasSum (fun k : ℤ × ℤ => f k.1 (2 * k.2 + 1)) a) :
    Filter.Tendsto (fun N : ℕ => ∑ n ∈ Finset.Icc (-(N : ℤ)) (N - 1), ∑ y ∈ Imag.window N c (q n), f n y) Filter.atTop
      (nhds a) := by
  classical
  have inj : Function.Injective fun m : ℤ => 2 * m + 1 := fun a b h => by simpa using h
  let ws : ℕ → ℤ → Finset ℤ := fun N n => (Imag.window N c (q n)).preimage (fun m : ℤ => 2 * m + 1) inj.injOn
  let T : ℕ → Finset (ℤ × ℤ) := fun N => (Finset.Icc (-(N : ℤ)) (N - 1)).biUnion fun n => (ws N n).image fun m => (n, m)
  have hT : ∀ N p, p ∈ T N ↔ p.1 ∈ Finset.Icc (-(N : ℤ)) (N - 1) ∧ p.2 ∈ ws N p.1 := by
    intro N p
    simp only [T, Finset.mem_biUnion, Finset.mem_image]
    constructor
    · rintro ⟨n, hn, m, hm, rfl⟩; exact ⟨hn, hm⟩
    · rintro ⟨h1, h2⟩; exact ⟨p.1, h1, p.2, h2, rfl⟩
  have hs : ∀ N : ℕ, ∑ n ∈ Finset.Icc (-(N : ℤ)) (N - 1), ∑ y ∈ Imag.window N c (q n), f n y =
      ∑ k ∈ T N, f k.1 (2 * k.2 + 1) := by
    intro N
    rw [Finset.sum_finset_product (T N) _ (ws N) (hT N)]
    refine Finset.sum_congr rfl fun n _ => ?_
    refine (Finset.sum_preimage (fun m : ℤ => 2 * m + 1) _ inj.injOn (f n) ?_).symm
    intro y hy hr
    exact absurd ⟨y / 2, by have := (mem_window.1 hy).2.1; show 2 * (y / 2) + 1 = y; omega⟩ hr
  have hat : Filter.Tendsto T Filter.atTop Filter.atTop := by
    refine Filter.tendsto_atTop.2 fun s => ?_
    have : ∀ p ∈ s, ∀ᶠ N in Filter.atTop, p ∈ T N := by
      intro p _
      refine Filter.eventually_atTop.2 ⟨p.1.natAbs + (2 * p.2 + 1).natAbs + 1, fun N hN => ?_⟩
      rw [hT, Finset.mem_Icc]
      refine ⟨by omega, ?_⟩
      simp only [ws, Finset.mem_preimage]
      rw [mem_window]
      have := hq p.1
      split <;> omega
    exact ((Filter.eventually_all_finset s).2 this).mono fun N hN => fun p hp => hN p hp
  simp only [hs]
  exact h.comp hat

theorem cubes {x y z : ℝ} (hx : 0 ≤ x) (hy : 0 ≤ y) (hz : 0 ≤ z) : x * y * z ≤ x ^ 3 + y ^ 3 + z ^ 3 := by
  nlinarith [mul_nonneg (add_nonneg (add_nonneg hx hy) hz) (add_nonneg (add_nonneg (sq_nonneg (x - y)) (sq_nonneg (y - z)))
    (sq_nonneg (x - z))), pow_nonneg hx 3, pow_nonneg hy 3, pow_nonneg hz 3, mul_nonneg (mul_nonneg hx hy) hz]

/-- A product of three decaying propagators can be summed over two frequencies. -/
theorem summable_three {f : ℤ → ℝ} (h0 : ∀ n, 0 ≤ f n) (hf : Summable fun n => Real.sqrt (f n) ^ 3) (m : ℤ) :
    Summable fun k : ℤ × ℤ => f k.1 * f k.2 * f (k.1 + k.2 - m) := by
  set s : ℤ → ℝ := fun n => Real.sqrt (f n)
  have hs : ∀ n, 0 ≤ s n := fun n => Real.sqrt_nonneg _
  have hsq : ∀ n, f n = s n * s n := fun n => (Real.mul_self_sqrt (h0 n)).symm
  have base : Summable fun k : ℤ × ℤ => s k.1 ^ 3 * s k.2 ^ 3 :=
    hf.mul_of_nonneg hf (fun n => pow_nonneg (hs n) 3) (fun n => pow_nonneg (hs n) 3)
  let e1 : ℤ × ℤ ≃ ℤ × ℤ := ⟨fun k => (k.2, k.1 + k.2 - m), fun k => (k.2 - k.1 + m, k.1), fun k => by ext <;> simp <;> ring,
    fun k => by ext <;> simp <;> ring⟩
  let e2 : ℤ × ℤ ≃ ℤ × ℤ := ⟨fun k => (k.1, k.1 + k.2 - m), fun k => (k.1, k.2 - k.1 + m), fun k => by ext <;> simp <;> ring,
    fun k => by ext <;> simp <;> ring⟩
  have b1 := (e1.summable_iff (f := fun k : ℤ × ℤ => s k.1 ^ 3 * s k.2 ^ 3)).2 base
  have b2 := (e2.summable_iff (f := fun k : ℤ × ℤ => s k.1 ^ 3 * s k.2 ^ 3)).2 base
  refine Summable.of_nonneg_of_le (fun k => mul_nonneg (mul_nonneg (h0 _) (h0 _)) (h0 _)) (fun k => ?_) ((base.add b1).add b2)
  have := cubes (mul_nonneg (hs k.1) (hs k.2)) (mul_nonneg (hs k.2) (hs (k.1 + k.2 - m))) (mul_nonneg (hs k.1) (hs (k.1 + k.2 - m)))
  simp only [Function.comp, e1, e2, Equiv.coe_fn_mk, ← mul_pow]
  rw [hsq k.1, hsq k.2, hsq (k.1 + k.2 - m)]
  calc _ = s k.1 * s k.2 * (s k.2 * s (k.1 + k.2 - m)) * (s k.1 * s (k.1 + k.2 - m)) := by ring
    _ ≤ _ := this

theorem summable_decay {G : ℤ → 𝕜} (hG : Decays G) : Summable fun n : ℤ => Real.sqrt ‖G (2 * n + 1)‖ ^ 3 := by
  obtain ⟨C, hC⟩ := hG
  have hC0 : 0 ≤ C := by
    have := (norm_nonneg _).trans (hC 0)
    simpa using this
  have inj : Function.Injective fun m : ℤ => 2 * m + 1 := fun a b h => by simpa using h
  have h1 : Summable fun n : ℤ => |((2 * n + 1 : ℤ) : ℝ)| ^ (-(3 / 2 : ℝ)) :=
    (Real.summable_abs_int_rpow (b := 3 / 2) (by norm_num)).comp_injective inj
  refine Summable.of_nonneg_of_le (fun n => pow_nonneg (Real.sqrt_nonneg _) 3) (fun n => ?_) (h1.mul_left (Real.sqrt C ^ 3))
  have hx : 0 ≤ |((2 * n + 1 : ℤ) : ℝ)| := abs_nonneg _
  calc Real.sqrt ‖G (2 * n + 1)‖ ^ 3 ≤ Real.sqrt (C / |((2 * n + 1 : ℤ) : ℝ)|) ^ 3 := by
        exact pow_le_pow_left₀ (Real.sqrt_nonneg _) (Real.sqrt_le_sqrt (hC n)) 3
    _ = Real.sqrt C ^ 3 * |((2 * n + 1 : ℤ) : ℝ)| ^ (-(3 / 2 : ℝ)) := by
        rw [Real.sqrt_div hC0, div_pow, div_eq_mul_inv, Real.rpow_neg hx]
        congr 2
        rw [Real.sqrt_eq_rpow, ← Real.rpow_natCast, ← Real.rpow_mul hx]
        norm_num

/-- The diagram can be summed. -/
theorem summable_diagram {G : ℤ → 𝕜} (hG : Decays G) (ph : Bool) (w : 𝕜) {g : (Fin 4 → ℤ) → 𝕜} (hg : ∃ B, ∀ ν, ‖g ν‖ ≤ B)
    (m : ℤ) : Summable fun k : ℤ × ℤ => diagram G ph w g (2 * m + 1) (2 * k.1 + 1) (2 * k.2 + 1) := by
  obtain ⟨B, hB⟩ := hg
  have h3 := summable_three (f := fun n => ‖G (2 * n + 1)‖) (fun n => norm_nonneg _) (summable_decay hG) m
  refine Summable.of_norm_bounded (h3.mul_left (‖w‖ * (2 * B))) fun k => ?_
  have e : 2 * k.2 + 1 + (2 * k.1 + 1) - (2 * m + 1) = 2 * (k.1 + k.2 - m) + 1 := by ring
  have hs : ‖(if ph = true then (-1 : 𝕜) else 1)‖ = 1 := by cases ph <;> simp
  simp only [diagram, e, Imag.pairOf, Bool.false_eq_true, if_false, norm_mul, hs, one_mul]
  have hsum : ‖g ![2 * k.2 + 1, 2 * k.1 + 1, 2 * m + 1, 2 * (k.1 + k.2 - m) + 1] +
      g ![2 * m + 1, 2 * (k.1 + k.2 - m) + 1, 2 * k.2 + 1, 2 * k.1 + 1]‖ ≤ 2 * B := by
    refine (norm_add_le _ _).trans ?_
    linarith [hB ![2 * k.2 + 1, 2 * k.1 + 1, 2 * m + 1, 2 * (k.1 + k.2 - m) + 1],
      hB ![2 * m + 1, 2 * (k.1 + k.2 - m) + 1, 2 * k.2 + 1, 2 * k.1 + 1]]
  calc _ = ‖w‖ * (‖G (2 * k.1 + 1)‖ * ‖G (2 * k.2 + 1)‖ * ‖G (2 * (k.1 + k.2 - m) + 1)‖) *
        ‖g ![2 * k.2 + 1, 2 * k.1 + 1, 2 * m + 1, 2 * (k.1 + k.2 - m) + 1] +
          g ![2 * m + 1, 2 * (k.1 + k.2 - m) + 1, 2 * k.2 + 1, 2 * k.1 + 1]‖ := by ring
    _ ≤ ‖w‖ * (‖G (2 * k.1 + 1)‖ * ‖G (2 * k.2 + 1)‖ * ‖G (2 * (k.1 + k.2 - m) + 1)‖) * (2 * B) :=
        mul_le_mul_of_nonneg_left hsum (by positivity)
    _ = _ := by ring

/-- The value of the diagram with complete sums. -/
noncomputable def whole (G : ℤ → 𝕜) (ph : Bool) (w : 𝕜) (g : (Fin 4 → ℤ) → 𝕜) (v : ℤ) : 𝕜 :=
  ∑' k : ℤ × ℤ, diagram G ph w g v (2 * k.1 + 1) (2 * k.2 + 1)

theorem whole_add {G : ℤ → 𝕜} (hG : Decays G) (ph : Bool) (w : 𝕜) {g g' : (Fin 4 → ℤ) → 𝕜} (hg : ∃ B, ∀ ν, ‖g ν‖ ≤ B)
    (hg' : ∃ B, ∀ ν, ‖g' ν‖ ≤ B) (m : ℤ) : whole G ph w (fun ν => g ν + g' ν) (2 * m + 1) =
      whole G ph w g (2 * m + 1) + whole G ph w g' (2 * m + 1) := by
  rw [whole, whole, whole, ← (summable_diagram hG ph w hg m).tsum_add (summable_diagram hG ph w hg' m)]
  refine tsum_congr fun k => ?_
  simp only [diagram]; ring

variable (u : Setup 𝕜) (w : 𝕜) (σ : SF 𝕜) {Γ : VF 𝕜} (hΓ : Γ true = Γ false)
  (hG : Decays (lineG u.core u.Λ σ)) (m : ℤ)

/-- The loop over the mean bubble before the constant is split off. -/
noncomputable def raw (u : Setup 𝕜) (w : 𝕜) (σ : SF 𝕜) (Γ : VF 𝕜) (c : Ch) (v : ℤ) : 𝕜 :=
  loopOne (c == .t) u.core ((meanBub u (bareU w) Γ (pair u.core u.Λ σ)) false c) (lineG u.core u.Λ σ) v

include hΓ hG

theorem raw_limit_a (hg : ∃ B, ∀ ν, ‖Γ false .a 0 Imag.k0 ν‖ ≤ B) :
    Filter.Tendsto (fun N : ℕ => raw (withPos u N) w σ Γ .a (2 * m + 1)) Filter.atTop
      (nhds (kappa u.core * whole (lineG u.core u.Λ σ) u.core.ph w (Γ false .a 0 Imag.k0) (2 * m + 1))) := by
  have h := (summable_diagram hG u.core.ph w hg m).hasSum
  have := (sum_limit .a (q := fun n => 2 * n + 1 - (2 * m + 1)) (fun n => by omega)
    (f := fun n y => diagram (lineG u.core u.Λ σ) u.core.ph w (Γ false .a 0 Imag.k0) (2 * m + 1) (2 * n + 1) y) h).const_mul
      (kappa u.core)
  refine this.congr fun N => ?_
  exact (raw_a (withPos u N).core w Γ (lineG u.core u.Λ σ) (2 * m + 1) hΓ).symm

theorem raw_limit_p (hg : ∃ B, ∀ ν, ‖Γ false .p 0 Imag.k0 ν‖ ≤ B) :
    Filter.Tendsto (fun N : ℕ => raw (withPos u N) w σ Γ .p (2 * m + 1)) Filter.atTop
      (nhds (kappa u.core * whole (lineG u.core u.Λ σ) u.core.ph w (Γ false .p 0 Imag.k0) (2 * m + 1))) := by
  have h := (summable_diagram hG u.core.ph w hg m).hasSum
  let e : ℤ × ℤ ≃ ℤ × ℤ := ⟨fun k => (k.1 + m - k.2, k.2), fun k => (k.1 - m + k.2, k.2), fun k => by ext <;> simp <;> ring,
    fun k => by ext <;> simp <;> ring⟩
  have h' := e.hasSum_iff.2 h
  have := (sum_limit .p (q := fun n => 2 * n + 1 + (2 * m + 1)) (fun n => by omega)
    (f := fun n y => diagram (lineG u.core u.Λ σ) u.core.ph w (Γ false .p 0 Imag.k0) (2 * m + 1)
      (2 * n + 1 + (2 * m + 1) - y) y) (by
        refine h'.congr_fun ?_ <;> intro k <;> simp only [Function.comp, e, Equiv.coe_fn_mk]
        congr 1
        ring)).const_mul (kappa u.core)
  refine this.congr fun N => ?_
  exact (raw_p (withPos u N).core w Γ (lineG u.core u.Λ σ) (2 * m + 1) hΓ).symm

theorem raw_limit_t (hg : ∃ B, ∀ ν, ‖Γ false .t 0 Imag.k0 ν‖ ≤ B)
    (h2 : ∀ a b c d, Γ false .t 0 Imag.k0 ![a, b, c, d] = Γ false .t 0 Imag.k0 ![b, a, d, c]) :
    Filter.Tendsto (fun N : ℕ => raw (withPos u N) w σ Γ .t (2 * m + 1)) Filter.atTop
      (nhds (kappa u.core * whole (lineG u.core u.Λ σ) u.core.ph w (Γ false .t 0 Imag.k0) (2 * m + 1))) := by
  have h := (summable_diagram hG u.core.ph w hg m).hasSum
  have h' := (Equiv.prodComm ℤ ℤ).hasSum_iff.2 h
  have := (sum_limit .t (q := fun n => 2 * n + 1 - (2 * m + 1)) (fun n => by omega)
    (f := fun n y => diagram (lineG u.core u.Λ σ) u.core.ph w (Γ false .t 0 Imag.k0) (2 * m + 1) y (2 * n + 1)) h').const_mul
      (kappa u.core)
  refine this.congr fun N => ?_
  exact (raw_t (withPos u N).core w Γ (lineG u.core u.Λ σ) (2 * m + 1) hΓ h2).symm

end
end Verif.Sde.Imag
