import Verif.Freqs.Spec
import Mathlib.Tactic.FieldSimp
import Mathlib.Tactic.Ring
import Mathlib.Tactic.Linarith

/-! C27–C30, C75: frequency rounding and conversions. -/
namespace Verif.Freqs

/-! ### C27 -/

theorem divFloor_eq {a b : Int} (hb : 0 < b) : divFloor a b = .ok (a / b) := by
  unfold divFloor
  have hb' : ¬ ¬ b > 0 := by omega
  rw [if_neg hb']
  by_cases ha : a ≥ 0
  · have e : a.tdiv b = a / b := Int.tdiv_eq_ediv_of_nonneg ha
    simp only [ha, if_true, e, if_pos (Int.ediv_le_self b ha)]
  · simp only [ha, if_false]
    have e : (-a + b - 1).tdiv b = (-a + b - 1) / b := Int.tdiv_eq_ediv_of_nonneg (by omega)
    have e2 : -((-a + b - 1) / b) = a / b := by
      have h1 := Int.mul_ediv_add_emod (-a + b - 1) b
      have h2 := Int.emod_nonneg (-a + b - 1) hb.ne'
      have h3 := Int.emod_lt_of_pos (-a + b - 1) hb
      symm
      rw [Int.ediv_eq_iff_of_pos hb]
      constructor <;> nlinarith
    rw [e, e2, if_pos]
    exact (Int.ediv_neg_of_neg_of_pos (by omega) hb).le

theorem divCeil_eq {a b : Int} (hb : 0 < b) : divCeil a b = .ok (-((-a) / b)) := by
  unfold divCeil
  have hb' : ¬ ¬ b > 0 := by omega
  rw [if_neg hb']
  by_cases ha : a ≥ 0
  · simp only [ha, if_true]
    have e : (a + b - 1).tdiv b = (a + b - 1) / b := Int.tdiv_eq_ediv_of_nonneg (by omega)
    rw [e]
    congr 1
    have h1 := Int.mul_ediv_add_emod (-a) b
    have h2 := Int.emod_nonneg (-a) hb.ne'
    have h3 := Int.emod_lt_of_pos (-a) hb
    rw [Int.ediv_eq_iff_of_pos hb]
    constructor <;> nlinarith
  · simp only [ha, if_false]
    rw [Int.tdiv_eq_ediv_of_nonneg (by omega)]

/-- C27: integer division rounding down and up is the mathematical floor and ceiling of the quotient, for
every dividend and every positive divisor; other divisors are refused. -/
theorem c27_integer_division (a b : Int) :
    (0 < b → divFloor a b = .ok ⌊(a : ℚ) / b⌋ ∧ divCeil a b = .ok ⌈(a : ℚ) / b⌉) ∧
    (b ≤ 0 → divFloor a b = .error .assertion ∧ divCeil a b = .error .assertion) := by
  constructor
  · intro hb
    have hbq : (0:ℚ) < b := by exact_mod_cast hb
    rw [divFloor_eq hb, divCeil_eq hb]
    have hf : ∀ z : Int, ⌊(z : ℚ) / b⌋ = z / b := by
      intro z
      rw [Int.floor_eq_iff, div_lt_iff₀ hbq, le_div_iff₀ hbq]
      have h1 := Int.mul_ediv_add_emod z b
      have h2 := Int.emod_nonneg z hb.ne'
      have h3 := Int.emod_lt_of_pos z hb
      constructor
      · have : z / b * b ≤ z := by nlinarith
        exact_mod_cast this
      · have : z < (z / b + 1) * b := by nlinarith
        exact_mod_cast this
    refine ⟨by rw [hf], ?_⟩
    rw [← hf, ← Int.ceil_neg]
    push_cast
    rw [neg_div, neg_neg]
  · intro hb
    have : ¬ b > 0 := by omega
    simp [divFloor, divCeil, this]

theorem floor2b_eq (w : Int) : floor2b w = .ok (w / 2 * 2) := by
  have h1 : ¬ ¬ (w / 2 * 2 ≤ w) := by omega
  have h2 : ¬ ¬ (w / 2 * 2 ≥ w - 2) := by omega
  simp only [floor2b, divFloor_eq (show (0:Int) < 2 by norm_num), bind, Except.bind, pure, Except.pure,
    if_neg h1, if_neg h2]

theorem ceil2b_eq (w : Int) : ceil2b w = .ok (-((-w) / 2) * 2) := by
  have h1 : ¬ ¬ (-((-w) / 2) * 2 ≥ w) := by omega
  have h2 : ¬ ¬ (-((-w) / 2) * 2 ≤ w + 2) := by omega
  simp only [ceil2b, divCeil_eq (show (0:Int) < 2 by norm_num), bind, Except.bind, pure, Except.pure,
    if_neg h1, if_neg h2]

/-- C27: rounding an integer to a bosonic frequency never fails and returns the largest even number not
above it and the smallest even number not below it. -/
theorem c27_round_even (w : Int) :
    ∃ f c, floor2b w = .ok f ∧ ceil2b w = .ok c ∧ f % 2 = 0 ∧ c % 2 = 0 ∧
      (∀ e, e % 2 = 0 → (e ≤ w ↔ e ≤ f) ∧ (w ≤ e ↔ c ≤ e)) := by
  refine ⟨_, _, floor2b_eq w, ceil2b_eq w, by omega, by omega, ?_⟩
  intro e he
  constructor <;> constructor <;> omega

theorem truncQ_int (z : Int) (hz : 0 ≤ z) : truncQ (z : ℚ) = z := by
  simp [truncQ, hz]

/-- C27: for an even frequency the rounded halves add up to it and the sign-flip correction is their
difference. -/
theorem c27_halves (w : Int) (hw : w % 2 = 0) :
    ∃ f c, floor2b (w / 2) = .ok f ∧ ceil2b (w / 2) = .ok c ∧ f + c = w ∧
      signFlip (w : ℚ) = .ok (f - c) := by
  refine ⟨_, _, floor2b_eq _, ceil2b_eq _, by omega, ?_⟩
  obtain ⟨k, rfl⟩ : ∃ k, w = 2 * k := ⟨w / 2, by omega⟩
  have e1 : |((2 * k : Int) : ℚ) / 2| = ((|k| : Int) : ℚ) := by push_cast; congr 1; ring
  simp only [signFlip, signFlipInt, e1]
  rw [truncQ_int _ (abs_nonneg k)]
  have e2 : (-|k|).tmod 2 = -(|k| % 2) := by
    rw [Int.neg_tmod, Int.tmod_eq_emod_of_nonneg (abs_nonneg k)]
  have e3 : |k| % 2 = k % 2 := by
    rcases abs_choice k with h | h <;> rw [h]; omega
  rw [e2, e3]
  have : -(k % 2) = 0 ∨ -(k % 2) = -1 := by omega
  rw [if_pos this]
  simp only [bind, Except.bind, pure, Except.pure, Except.ok.injEq]
  omega

/-- C27, the floating-point variants agree with the integer ones on integers. -/
theorem c27_double_on_integers (w : Int) :
    ∃ f c, floor2b w = .ok f ∧ ceil2b w = .ok c ∧ floor2bD w = .ok (f : ℚ) ∧ ceil2bD w = .ok (c : ℚ) := by
  refine ⟨_, _, floor2b_eq w, ceil2b_eq w, ?_, ?_⟩
  · have e : ⌊(w:ℚ) / 2 + 1 / 10^8⌋ = w / 2 := by
      rw [Int.floor_eq_iff]
      have h1 : (2:ℚ) * (w / 2 : Int) ≤ w := by exact_mod_cast (by omega : 2 * (w / 2) ≤ w)
      have h2 : (w:ℚ) ≤ 2 * (w / 2 : Int) + 1 := by exact_mod_cast (by omega : w ≤ 2 * (w / 2) + 1)
      norm_num
      constructor <;> linarith
    have a1 : (w / 2 : Int) * 2 ≤ w := by omega
    have a2 : w / 2 * 2 ≥ w - 2 := by omega
    have b1 : (((w / 2 : Int) : ℚ)) * 2 ≤ w := by exact_mod_cast a1
    have b2 : (((w / 2 : Int) : ℚ)) * 2 ≥ w - 2 := by exact_mod_cast a2
    simp only [floor2bD, e, b1, b2, not_true, if_false]
    push_cast; rfl
  · have e : ⌈(w:ℚ) / 2 - 1 / 10^8⌉ = -((-w) / 2) := by
      rw [Int.ceil_eq_iff]
      have h1 : (w:ℚ) ≤ 2 * (-((-w) / 2) : Int) := by exact_mod_cast (by omega : w ≤ 2 * -((-w) / 2))
      have h2 : 2 * (-((-w) / 2) : Int) ≤ (w:ℚ) + 1 := by
        exact_mod_cast (by omega : 2 * -((-w) / 2) ≤ w + 1)
      norm_num at *
      constructor <;> linarith
    have a1 : -((-w) / 2) * 2 ≥ w := by omega
    have a2 : -((-w) / 2) * 2 ≤ w + 2 := by omega
    have b1 : (((-((-w) / 2) : Int) : ℚ)) * 2 ≥ w := by exact_mod_cast a1
    have b2 : (((-((-w) / 2) : Int) : ℚ)) * 2 ≤ w + 2 := by exact_mod_cast a2
    simp only [ceil2bD, e, b1, b2, not_true, if_false]
    push_cast; rfl

/-- The floating-point variants abort close below (above) an even number: the tolerance moves the result to
the wrong side of the assertion. -/
theorem c27_double_tolerance_refuted :
    floor2bD (2 - 1 / 10^9) = .error .assertion ∧ ceil2bD (2 + 1 / 10^9) = .error .assertion := by
  constructor <;> decide +kernel

/-- Rounding to bosonic (fermionic) frequencies keeps even (odd) integers. -/
theorem c27_round_fixed (w : Int) :
    (w % 2 = 0 → round2b (w : ℚ) = w) ∧ (w % 2 = 1 → round2f (w : ℚ) = w) := by
  have key : truncQ ((w:ℚ) + 1/10 * signQ (w:ℚ)) = w := by
    unfold truncQ signQ
    rcases lt_trichotomy w 0 with h | h | h
    · have h1 : (w:ℚ) ≤ -1 := by exact_mod_cast (by omega : w ≤ -1)
      have n1 : ¬ (w:ℚ) > 0 := by linarith
      have n2 : (w:ℚ) < 0 := by linarith
      have n3 : ¬ 0 ≤ (w:ℚ) + 1/10 * -1 := by linarith
      rw [if_neg n1, if_pos n2, if_neg n3, Int.ceil_eq_iff]
      constructor <;> linarith
    · subst h; simp
    · have h1 : (1:ℚ) ≤ w := by exact_mod_cast (by omega : 1 ≤ w)
      have n1 : (w:ℚ) > 0 := by linarith
      have n3 : 0 ≤ (w:ℚ) + 1/10 * 1 := by linarith
      rw [if_pos n1, if_pos n3, Int.floor_eq_iff]
      constructor <;> linarith
  constructor
  · intro h
    obtain ⟨k, rfl⟩ : ∃ k, w = 2 * k := ⟨w / 2, by omega⟩
    rw [round2b, key, Int.mul_tdiv_cancel_left _ (by norm_num)]
  · intro h
    obtain ⟨k, rfl⟩ : ∃ k, w = 2 * k + 1 := ⟨w / 2, by omega⟩
    rw [round2f, key, show 2 * k + 1 - 1 = 2 * k by ring, Int.mul_tdiv_cancel_left _ (by norm_num)]

example : floor2b (-3) = .ok (-4) ∧ ceil2b (-3) = .ok (-2) ∧ signFlip (-6) = .ok (-2) := by decide +kernel

/-! ### C28 -/

/-- C28: in each channel the two conversions are inverse to each other. -/
theorem c28_bosonic {K : Type} [Field K] [CharZero K] (c : Ch) (x : Fr K) :
    toNatural c (toBosonic c x) = x ∧ toBosonic c (toNatural c x) = x := by
  obtain ⟨w, v1, v2⟩ := x
  cases c <;> simp only [toNatural, toBosonic, Fr.mk.injEq] <;>
    refine ⟨⟨?_, ?_, ?_⟩, ?_, ?_, ?_⟩ <;> first | trivial | ring

/-- C28: the bosonic frequencies are the transfer energies of the legs in the three channels. -/
theorem c28_transfer {K : Type} [Field K] [CharZero K] (c : Ch) (x : Fr K) :
    toBosonic c x = transfer (legs (.ch c) x) := by
  obtain ⟨w, v1, v2⟩ := x
  cases c <;> simp only [toBosonic, transfer, legs, Fr.mk.injEq] <;>
    refine ⟨?_, ?_, ?_⟩ <;> ring

/-! ### C29 -/

/-- Energy is conserved in each convention. -/
theorem legs_conserved {K : Type} [Field K] (s : Conv) (x : Fr K) :
    (legs s x).o1 + (legs s x).o2 = (legs s x).i1 + (legs s x).i2 := by
  obtain ⟨w, v1, v2⟩ := x
  rcases s with (_ | _ | _) | _ <;> simp only [legs] <;> ring

/-- The legs determine the frequencies. -/
theorem legs_injective {K : Type} [Field K] [CharZero K] (s : Conv) :
    Function.Injective (legs (K := K) s) := by
  rintro ⟨w, v1, v2⟩ ⟨w', v1', v2'⟩ h
  rcases s with (_ | _ | _) | _ <;> simp only [legs, Legs.mk.injEq] at h <;>
    obtain ⟨h1, h2, h3, h4⟩ := h <;> rw [Fr.mk.injEq]
  · exact ⟨by linear_combination h4 - h1, by linear_combination (h1 + h4) / 2,
      by linear_combination (h2 + h3) / 2⟩
  · exact ⟨by linear_combination h1 + h2, by linear_combination (h1 - h2) / 2,
      by linear_combination (h3 - h4) / 2⟩
  · exact ⟨by linear_combination h1 - h3, by linear_combination (h2 + h4) / 2,
      by linear_combination (h1 + h3) / 2⟩
  · exact ⟨h1, h2, h3⟩

/-- C29: every channel conversion preserves the energies of all four legs. -/
theorem c29_legs {K : Type} [Field K] [CharZero K] (dst : Ch) (src : Conv) (x : Fr K) :
    legs (.ch dst) (transf dst src x) = legs src x := by
  obtain ⟨w, v1, v2⟩ := x
  rcases src with (_ | _ | _) | _ <;> cases dst <;> simp only [transf, legs, Legs.mk.injEq] <;>
    refine ⟨?_, ?_, ?_, ?_⟩ <;> ring

/-- C29: hence conversions compose and invert. -/
theorem c29_compose {K : Type} [Field K] [CharZero K] (a b : Ch) (s : Conv) (x : Fr K) :
    transf a (.ch b) (transf b s x) = transf a s x ∧ transf a (.ch b) (transf b (.ch a) x) = x := by
  constructor <;> apply legs_injective (.ch a) <;> simp only [c29_legs]

/-! ### C30 -/

theorem halfFloor_spec {w : Int} : IsHalfFloor w (halfFloor w) := by
  unfold IsHalfFloor halfFloor; omega

theorem IsHalfFloor.unique {w f : Int} (h : IsHalfFloor w f) : f = halfFloor w := by
  unfold IsHalfFloor at h; unfold halfFloor; omega

/-- On bosonic frequencies `halfFloor` is what `floor2bfreq(w / 2)` returns. -/
theorem floor2bD_half (w : Int) (hw : w % 2 = 0) : floor2bD ((w : ℚ) / 2) = .ok (halfFloor w : ℚ) := by
  obtain ⟨k, rfl⟩ : ∃ k, w = 2 * k := ⟨w / 2, by omega⟩
  obtain ⟨f, _, hf, _, h, _⟩ := c27_double_on_integers k
  rw [floor2b_eq, Except.ok.injEq] at hf
  rw [show (((2 * k : Int) : ℚ)) / 2 = k by push_cast; ring, h, ← hf]
  congr 2
  unfold halfFloor; omega

/-- C30 for all conversions except the one from the purely fermionic convention to channel `a`: leg energies
and parities are preserved. -/
theorem c30_legs_partial (dst : Ch) (src : Conv) (hne : ¬ (dst = .a ∧ src = .f)) (x : Fr Int)
    (hp : Parity src x) {f f' : Int} (hf : IsHalfFloor x.w f)
    (hf' : IsHalfFloor (transfM dst src x).w f') :
    legsM (.ch dst) (transfM dst src x) f' = legsM src x f ∧ Parity (.ch dst) (transfM dst src x) := by
  have e := hf.unique
  have e' := hf'.unique
  subst e e'
  obtain ⟨w, v1, v2⟩ := x
  rcases src with (_ | _ | _) | _ <;> cases dst <;>
    first
      | exact absurd ⟨rfl, rfl⟩ hne
      | (simp only [Parity] at hp
         obtain ⟨p1, p2, p3⟩ := hp
         simp only [transfM, legsM, Legs.mk.injEq, Parity, halfFloor]
         first
          | exact ⟨rfl, p1, p2, p3⟩
          | exact ⟨trivial, p1, p2, p3⟩
          | (refine ⟨⟨?_, ?_, ?_, ?_⟩, ?_, ?_, ?_⟩ <;> omega))

/-- C30 is false for the conversion from the purely fermionic convention to channel `a` (r_vertex.hpp:1642-1647):
the halved transfer frequency is subtracted instead of added. With legs `(1, 5, 1, 5)` (in units of `π T`) the
converted argument has legs `(-3, 1, -3, 1)`. -/
theorem c30_fermionic_to_a_refuted :
    ∃ x : Fr Int, Parity .f x ∧
      legsM (.ch .a) (transfM .a .f x) (halfFloor (transfM .a .f x).w) ≠ legsM .f x (halfFloor x.w) :=
  ⟨⟨1, 5, 1⟩, ⟨by decide, by decide, by decide⟩, by decide⟩

/-- ... more precisely it is wrong whenever the rounded half of the transfer frequency does not vanish. -/
theorem c30_fermionic_to_a_exact (x : Fr Int) :
    legsM (.ch .a) (transfM .a .f x) (halfFloor (transfM .a .f x).w) = legsM .f x (halfFloor x.w) ↔
      halfFloor (x.v1 - x.v2) = 0 := by
  obtain ⟨w, v1, v2⟩ := x
  simp only [transfM, legsM, Legs.mk.injEq]
  constructor
  · rintro ⟨h, -⟩; omega
  · intro h; rw [h]; refine ⟨?_, ?_, ?_, ?_⟩ <;> omega

/-- The parities hold for all conversions, including that one. -/
theorem c30_parity (dst : Ch) (src : Conv) (x : Fr Int) (hp : Parity src x) :
    Parity (.ch dst) (transfM dst src x) := by
  obtain ⟨w, v1, v2⟩ := x
  rcases src with (_ | _ | _) | _ <;> cases dst <;>
    (simp only [Parity] at hp
     simp only [transfM, Parity, halfFloor] at *
     obtain ⟨p1, p2, p3⟩ := hp
     refine ⟨?_, ?_, ?_⟩ <;> omega)

example : Parity (.ch .p) ⟨6, 3, -5⟩ ∧ IsHalfFloor 6 2 := by
  constructor
  · exact ⟨by decide, by decide, by decide⟩
  · exact ⟨by decide, by decide, by decide⟩

/-! ### C75 -/

/-- C75, two frequencies: the polar coordinates are a radius and an angle, and converting back returns the
frequencies. -/
theorem c75_polar (x : ℝ × ℝ) :
    k2Natural (k2Internal x) = x ∧ 0 ≤ (k2Internal x).1 ∧ |(k2Internal x).2| ≤ Real.pi := by
  obtain ⟨w, v⟩ := x
  have hn : Real.sqrt (w * w * (1/4) + v * v) = ‖(⟨w * (1/2), v⟩ : ℂ)‖ := by
    rw [Complex.norm_def, Complex.normSq_mk]; congr 1; ring
  refine ⟨?_, Real.sqrt_nonneg _, Complex.abs_arg_le_pi _⟩
  simp only [k2Natural, k2Internal, hn, Prod.mk.injEq]
  constructor
  · rw [Complex.norm_mul_cos_arg]; ring
  · rw [Complex.norm_mul_sin_arg]

/-- C75, three frequencies, outside a tiny ball around the origin. -/
theorem c75_spherical_partial (x : Fr ℝ) (h : 1 / 10^15 ≤ (k3Internal x).w) :
    k3Natural (k3Internal x) = x := by
  obtain ⟨w, v, v'⟩ := x
  simp only [k3Internal] at h
  set ρ := Real.sqrt (w * w * (1/4) + v * v + v' * v') with hρ
  have hρ0 : 0 < ρ := lt_of_lt_of_le (by norm_num) h
  have hsq : ρ ^ 2 = w * w * (1/4) + v * v + v' * v' :=
    Real.sq_sqrt (by nlinarith [mul_self_nonneg w, mul_self_nonneg v, mul_self_nonneg v'])
  have hn : ‖(⟨v', v⟩ : ℂ)‖ = Real.sqrt (v' * v' + v * v) := by
    rw [Complex.norm_def, Complex.normSq_mk]
  have hle : (w * (1/2) / ρ) ^ 2 ≤ 1 := by
    rw [div_pow, div_le_one (by positivity), hsq]
    nlinarith [mul_self_nonneg v, mul_self_nonneg v']
  have habs := abs_le.mp ((sq_le_one_iff_abs_le_one _).mp hle)
  have hsin : ρ * Real.sin (Real.arccos (w * (1/2) / ρ)) = ‖(⟨v', v⟩ : ℂ)‖ := by
    rw [Real.sin_arccos, hn]
    have : ρ = Real.sqrt (ρ ^ 2) := (Real.sqrt_sq hρ0.le).symm
    conv_lhs => rw [show ρ * Real.sqrt (1 - (w * (1/2) / ρ) ^ 2)
      = Real.sqrt (ρ ^ 2) * Real.sqrt (1 - (w * (1/2) / ρ) ^ 2) by rw [← this]]
    rw [← Real.sqrt_mul (by positivity)]
    congr 1
    field_simp
    rw [hsq]; ring
  have hc : ¬ ρ < 1 / 10^15 := not_lt.mpr h
  simp only [k3Natural, k3Internal, ← hρ, if_neg hc, Fr.mk.injEq]
  refine ⟨?_, ?_, ?_⟩
  · rw [Real.cos_arccos habs.1 habs.2]; field_simp
  · rw [mul_right_comm, hsin]; simpa using Complex.norm_mul_sin_arg ⟨v', v⟩
  · rw [mul_right_comm, hsin]; simpa using Complex.norm_mul_cos_arg ⟨v', v⟩

/-- ... and inside that ball every frequency is reproduced up to twice its radius plus itself: the two
fermionic frequencies are replaced by zero. -/
theorem c75_spherical_small (x : Fr ℝ) (h : (k3Internal x).w < 1 / 10^15) :
    (k3Natural (k3Internal x)).v1 = 0 ∧ (k3Natural (k3Internal x)).v2 = 0 ∧
      (k3Natural (k3Internal x)).w = 2 * (k3Internal x).w := by
  simp only [k3Internal] at h
  simp only [k3Natural, k3Internal, if_pos h]
  simp
  ring

/-- C75 is false there: two non-zero fermionic frequencies are not returned. -/
theorem c75_spherical_refuted : ¬ ∀ x : Fr ℝ, k3Natural (k3Internal x) = x := fun h => by
  set x : Fr ℝ := ⟨0, 1 / 10 ^ 16, 0⟩ with hx
  have small : (k3Internal x).w < 1 / 10 ^ 15 := by
    simp only [k3Internal, hx]
    rw [Real.sqrt_lt' (by norm_num)]
    norm_num
  have e := (c75_spherical_small x small).1
  rw [h x, hx] at e
  norm_num at e

end Verif.Freqs
