import Verif.Fdt.Lemmas

/-
C112: completing a vertex with the fluctuation-dissipation relations changes nothing if the vertex is in thermal
equilibrium.  C113: the relations at vanishing transfer frequency used for the slices of the full vertex.
-/
namespace Verif.Fdt
open Freqs (Ch)

theorem leg_sum (ch : Ch) (w v vp : ℝ) : leg ch w v vp 0 + leg ch w v vp 1 + leg ch w v vp 2 + leg ch w v vp 3 = 0 := by
  cases ch <;> simp [leg] <;> ring

theorem facK3_leg (ch : Ch) (T w v vp : ℝ) : facK3 ch T w v vp =
    (fac (leg ch w v vp 0) T, fac (leg ch w v vp 1) T, fac (leg ch w v vp 2) T, fac (leg ch w v vp 3) T) := by
  cases ch <;> rfl

theorem conj_causal {T ν1 ν2 ν3 ν4 : ℝ} {V : Contour} (h : Thermal T ν1 ν2 ν3 ν4 V) :
    ∑ a, ∑ b, ∑ c, ∑ d, cc (V a b c d) = 0 := by
  have := congrArg cc h.causal
  simpa only [cc, map_sum, map_zero] using this

/-- **C112** (third class): in every channel and at every frequency. -/
theorem c112_third (ch : Ch) (T w v vp : ℝ) (V : Contour) (h : ThermalIn ch T w v vp V) :
    cellK3 ch T w v vp (component V) = component V := by
  have hc : ∀ a b c d, cc (V a b c d) = -(bz (weight T (leg ch w v vp 0) true) a * bz (weight T (leg ch w v vp 1) true) b *
      bz (weight T (leg ch w v vp 2) true) c * bz (weight T (leg ch w v vp 3) true) d) * V (!a) (!b) (!c) (!d) := by
    intro a b c d
    rw [← weight_bz, ← weight_bz, ← weight_bz, ← weight_bz]; exact h.kms a b c d
  have hp := weight_prod T _ _ _ _ (leg_sum ch w v vp)
  funext iK
  unfold cellK3
  simp only [facK3_leg]
  split_ifs with e0 e1
  · subst e0
    rw [alg1234 (V := V) (Vc := fun a b c d => cc (V a b c d)) hp (fac_weight T _) (fac_weight T _) (fac_weight T _)
      (fac_weight T _) (weight_ne T _) (weight_ne T _) (weight_ne T _) (weight_ne T _) hc h.causal (conj_causal h)]
    simp only [four1234, cc_component]
  · subst e1
    rw [alg123 (V := V) (Vc := fun a b c d => cc (V a b c d)) hp (fac_weight T _) (fac_weight T _) (fac_weight T _)
      (weight_ne T _) (weight_ne T _) (weight_ne T _) hc h.causal (conj_causal h)]
    simp only [four123, cc_component]
  · rfl

theorem re_two (z : ℂ) : ((z.re : ℝ) : ℂ) * 2 = z + cc z := by
  rw [show z + cc z = ((2 * z.re : ℝ) : ℂ) from Complex.add_conj z]
  push_cast; ring

theorem cc_comp3 (W : Bool → Bool → Bool → ℂ) (i j k : Nat) :
    cc (comp3 W i j k) = comp3 (fun a b c => cc (W a b c)) i j k := by
  have t : ∀ n b, cc (turn n b) = turn n b := by
    intro n b; unfold turn cc; split_ifs <;> simp
  unfold comp3
  simp only [cc] at t ⊢
  simp only [map_mul, map_sum, t]
  congr 1
  rw [map_div₀, map_one, Complex.conj_ofNat]

theorem cc_comp2 (W : Bool → Bool → ℂ) (i j : Nat) :
    cc (comp2 W i j) = comp2 (fun a b => cc (W a b)) i j := by
  have t : ∀ n b, cc (turn n b) = turn n b := by
    intro n b; unfold turn cc; split_ifs <;> simp
  unfold comp2
  simp only [cc] at t ⊢
  simp only [map_mul, map_sum, t]
  congr 1
  rw [map_div₀, map_one, Complex.conj_ofNat]

/-- The relations between three legs, two fermionic and one bosonic, in the form of the code. -/
theorem three_legs {T ν1 ν2 w : ℝ} (hT : 0 < T) (hw : w ≠ 0) (hs : ν1 + ν2 + w = 0) (W : Bool → Bool → Bool → ℂ)
    (hk : ∀ a b c, cc (W a b c) = -(bz (weight T ν1 true) a * bz (weight T ν2 true) b *
      bz ((Real.exp (w / T) : ℝ) : ℂ) c) * W (!a) (!b) (!c))
    (S : ∑ a, ∑ b, ∑ c, W a b c = 0) :
    three12 (fac ν1 T) (fac ν2 T) (comp3 W 0 1 1) (comp3 W 1 0 1) (comp3 W 1 1 0) = comp3 W 0 0 1 ∧
    three13 (fac ν1 T) (1 / fac w T) (comp3 W 0 1 1) (comp3 W 1 0 1) (comp3 W 1 1 0) = comp3 W 0 1 0 ∧
    three23 (fac ν2 T) (1 / fac w T) (comp3 W 0 1 1) (comp3 W 1 0 1) (comp3 W 1 1 0) = comp3 W 1 0 0 ∧
    three123 (fac ν1 T) (fac ν2 T) (1 / fac w T) (comp3 W 0 1 1) (comp3 W 1 0 1) (comp3 W 1 1 0) = comp3 W 0 0 0 := by
  have S' : ∑ a, ∑ b, ∑ c, cc (W a b c) = 0 := by
    have := congrArg cc S
    simpa only [cc, map_sum, map_zero] using this
  have hp : weight T ν1 true * weight T ν2 true * ((Real.exp (w / T) : ℝ) : ℂ) = 1 := by
    rw [weight_mul, ← Complex.ofReal_mul, ← Real.exp_add, ← add_div, hs]; simp
  obtain ⟨a1, a2, a3, a4⟩ := alg3 (W := W) (Wc := fun a b c => cc (W a b c)) hp (fac_weight T _) (fac_weight T _)
    (fac_boson hT hw) (weight_ne T _) (weight_ne T _) (boson_ne hT hw) hk S S'
  refine ⟨?_, ?_, ?_, ?_⟩
  · rw [a1]; simp only [three12, cc_comp3]
  · rw [a2]; simp only [three13, cc_comp3]
  · rw [a3]; simp only [three23, cc_comp3]
  · rw [a4]; unfold three123
    rw [re_two]
    have : ∀ z : ℝ, cc (z : ℂ) = z := Complex.conj_ofReal
    simp only [cc, map_add, map_mul] at this ⊢
    simp only [this]
    have k := cc_comp3 W
    simp only [cc] at k
    simp only [k]

/-- **C112** (second class): away from vanishing transfer frequency; `w` is larger than the temperature there. -/
theorem c112_second (ch : Ch) (T w v vp : ℝ) (hT : 0 < T) (V : Contour) (hm : RightMerged ch V)
    (h : ThermalIn ch T w v vp V) : cellK2 ch T w v (component V) = component V := by
  funext iK
  unfold cellK2
  by_cases hw : |w| > T
  · rw [if_pos hw]
    have w0 : w ≠ 0 := by rintro rfl; simp at hw; linarith
    have hS := h.causal
    have hk := h.kms
    cases ch with
    | a =>
      have z : ∀ a d, V a true false d = 0 ∧ V a false true d = 0 :=
        fun a d => ⟨hm _ _ _ _ (by decide), hm _ _ _ _ (by decide)⟩
      have K := three_legs (ν1 := -v - w / 2) (ν2 := v - w / 2) hT w0 (by ring) (fun l1 l2 l3 => V l2 l3 l3 l1)
        (by
          intro l1 l2 l3
          have := hk l2 l3 l3 l1
          simp only [cc]
          rw [this]
          congr 1; congr 1
          rw [weight_bz, weight_bz T (leg Ch.a w v vp 3)]
          cases l3
          · simp [weight, bz, leg]; cases l1 <;> cases l2 <;> simp [mul_comm]
          · have e : w = leg Ch.a w v vp 1 + leg Ch.a w v vp 2 := by simp [leg]; ring
            have := weight_mul T (leg Ch.a w v vp 1) (leg Ch.a w v vp 2)
            rw [← e] at this
            rw [show bz ((Real.exp (w / T) : ℝ) : ℂ) true = ((Real.exp (w / T) : ℝ) : ℂ) from rfl, ← this]
            simp [leg]; ring)
        (by simp [Fintype.sum_bool, z] at hS ⊢; linear_combination hS)
      have c8 : component V 8 = comp3 (fun l1 l2 l3 => V l2 l3 l3 l1) 0 1 1 := by
        simp [component, comp3, Fintype.sum_bool, turn, z]; try ring
      have c1 : component V 1 = comp3 (fun l1 l2 l3 => V l2 l3 l3 l1) 1 0 1 := by
        simp [component, comp3, Fintype.sum_bool, turn, z]; try ring
      have c11 : component V 11 = comp3 (fun l1 l2 l3 => V l2 l3 l3 l1) 1 1 0 := by
        simp [component, comp3, Fintype.sum_bool, turn, z]; try ring
      have c0 : component V 0 = comp3 (fun l1 l2 l3 => V l2 l3 l3 l1) 0 0 1 := by
        simp [component, comp3, Fintype.sum_bool, turn, z]; try ring
      have c2 : component V 2 = comp3 (fun l1 l2 l3 => V l2 l3 l3 l1) 0 0 0 := by
        simp [component, comp3, Fintype.sum_bool, turn, z]; try ring
      have c3 : component V 3 = comp3 (fun l1 l2 l3 => V l2 l3 l3 l1) 1 0 0 := by
        simp [component, comp3, Fintype.sum_bool, turn, z]; try ring
      dsimp only
      split_ifs with i0 i2 i3
      · subst i0; rw [c8, c1, c11, c0]; exact K.1
      · subst i2; rw [c8, c1, c11, c2]; exact K.2.2.2
      · subst i3; rw [c8, c1, c11, c3]; exact K.2.2.1
      · rfl
    | p =>
      have z : ∀ a b, V a b true false = 0 ∧ V a b false true = 0 :=
        fun a b => ⟨hm _ _ _ _ (by decide), hm _ _ _ _ (by decide)⟩
      have K := three_legs (ν1 := v + w / 2) (ν2 := -v + w / 2) hT (neg_ne_zero.2 w0) (by ring)
        (fun l1 l2 l3 => V l1 l2 l3 l3)
        (by
          intro l1 l2 l3
          have := hk l1 l2 l3 l3
          simp only [cc]
          rw [this]
          congr 1; congr 1
          rw [weight_bz, weight_bz T (leg Ch.p w v vp 1)]
          cases l3
          · simp [weight, bz, leg]
          · have e : -w = leg Ch.p w v vp 2 + leg Ch.p w v vp 3 := by simp [leg]; ring
            have := weight_mul T (leg Ch.p w v vp 2) (leg Ch.p w v vp 3)
            rw [← e] at this
            rw [show bz ((Real.exp (-w / T) : ℝ) : ℂ) true = ((Real.exp (-w / T) : ℝ) : ℂ) from rfl, ← this]
            simp [leg]; ring)
        (by simp [Fintype.sum_bool, z] at hS ⊢; linear_combination hS)
      have c4 : component V 4 = comp3 (fun l1 l2 l3 => V l1 l2 l3 l3) 0 1 1 := by
        simp [component, comp3, Fintype.sum_bool, turn, z]; try ring
      have c8 : component V 8 = comp3 (fun l1 l2 l3 => V l1 l2 l3 l3) 1 0 1 := by
        simp [component, comp3, Fintype.sum_bool, turn, z]; try ring
      have c13 : component V 13 = comp3 (fun l1 l2 l3 => V l1 l2 l3 l3) 1 1 0 := by
        simp [component, comp3, Fintype.sum_bool, turn, z]; try ring
      have c0 : component V 0 = comp3 (fun l1 l2 l3 => V l1 l2 l3 l3) 0 0 1 := by
        simp [component, comp3, Fintype.sum_bool, turn, z]; try ring
      have c1 : component V 1 = comp3 (fun l1 l2 l3 => V l1 l2 l3 l3) 0 0 0 := by
        simp [component, comp3, Fintype.sum_bool, turn, z]; try ring
      have c5 : component V 5 = comp3 (fun l1 l2 l3 => V l1 l2 l3 l3) 0 1 0 := by
        simp [component, comp3, Fintype.sum_bool, turn, z]; try ring
      dsimp only
      split_ifs with i0 i2 i3
      · subst i0; rw [c4, c8, c13, c0]; exact K.1
      · subst i2; rw [c4, c8, c13, c1]; exact K.2.2.2
      · subst i3; rw [c4, c8, c13, c5]; exact K.2.1
      · rfl
    | t =>
      have z : ∀ b d, V true b false d = 0 ∧ V false b true d = 0 :=
        fun b d => ⟨hm _ _ _ _ (by decide), hm _ _ _ _ (by decide)⟩
      have K := three_legs (ν1 := -v - w / 2) (ν2 := v - w / 2) hT w0 (by ring) (fun l1 l2 l3 => V l3 l2 l3 l1)
        (by
          intro l1 l2 l3
          have := hk l3 l2 l3 l1
          simp only [cc]
          rw [this]
          congr 1; congr 1
          rw [weight_bz T (leg Ch.t w v vp 1), weight_bz T (leg Ch.t w v vp 3)]
          cases l3
          · simp [weight, bz, leg]; cases l1 <;> cases l2 <;> simp [mul_comm]
          · have e : w = leg Ch.t w v vp 0 + leg Ch.t w v vp 2 := by simp [leg]; ring
            have := weight_mul T (leg Ch.t w v vp 0) (leg Ch.t w v vp 2)
            rw [← e] at this
            rw [show bz ((Real.exp (w / T) : ℝ) : ℂ) true = ((Real.exp (w / T) : ℝ) : ℂ) from rfl, ← this]
            simp [leg]; ring)
        (by simp [Fintype.sum_bool, z] at hS ⊢; linear_combination hS)
      have c4 : component V 4 = comp3 (fun l1 l2 l3 => V l3 l2 l3 l1) 0 1 1 := by
        simp [component, comp3, Fintype.sum_bool, turn, z]; try ring
      have c1 : component V 1 = comp3 (fun l1 l2 l3 => V l3 l2 l3 l1) 1 0 1 := by
        simp [component, comp3, Fintype.sum_bool, turn, z]; try ring
      have c7 : component V 7 = comp3 (fun l1 l2 l3 => V l3 l2 l3 l1) 1 1 0 := by
        simp [component, comp3, Fintype.sum_bool, turn, z]; try ring
      have c0 : component V 0 = comp3 (fun l1 l2 l3 => V l3 l2 l3 l1) 0 0 1 := by
        simp [component, comp3, Fintype.sum_bool, turn, z]; try ring
      have c2 : component V 2 = comp3 (fun l1 l2 l3 => V l3 l2 l3 l1) 0 0 0 := by
        simp [component, comp3, Fintype.sum_bool, turn, z]; try ring
      have c3 : component V 3 = comp3 (fun l1 l2 l3 => V l3 l2 l3 l1) 1 0 0 := by
        simp [component, comp3, Fintype.sum_bool, turn, z]; try ring
      dsimp only
      split_ifs with i0 i2 i3
      · subst i0; rw [c4, c1, c7, c0]; exact K.1
      · subst i2; rw [c4, c1, c7, c2]; exact K.2.2.2
      · subst i3; rw [c4, c1, c7, c3]; exact K.2.2.1
      · rfl
  · rw [if_neg hw]


/-- The relation between two bosonic legs in the form of the code. -/
theorem two_legs {T w : ℝ} (hT : 0 < T) (W : Bool → Bool → ℂ)
    (hk : ∀ a b, cc (W a b) = -(bz ((Real.exp (-w / T) : ℝ) : ℂ) a * bz ((Real.exp (w / T) : ℝ) : ℂ) b) * W (!a) (!b))
    (S : ∑ a, ∑ b, W a b = 0) :
    (w ≠ 0 → ((1 / fac w T : ℝ) : ℂ) * (cc (comp2 W 0 1) - comp2 W 0 1) = comp2 W 0 0) ∧
    (w = 0 → cc (comp2 W 0 1) = comp2 W 0 1) := by
  constructor
  · intro w0
    have S' : ∑ a, ∑ b, cc (W a b) = 0 := by
      have := congrArg cc S
      simpa only [cc, map_sum, map_zero] using this
    have hp : ((Real.exp (-w / T) : ℝ) : ℂ) * ((Real.exp (w / T) : ℝ) : ℂ) = 1 := by
      rw [← Complex.ofReal_mul, ← Real.exp_add, ← add_div]; simp
    have := alg2 (W := W) (Wc := fun a b => cc (W a b)) hp (fac_boson hT (neg_ne_zero.2 w0)) (boson_ne hT (neg_ne_zero.2 w0))
      hk S'
    rw [this, cc_comp2]
    have f : fac (-w) T = -fac w T := by
      unfold fac Propagator.fermiFac
      rw [← Real.tanh_neg]; congr 1; ring
    rw [f]
    push_cast
    rw [div_neg]; ring
  · rintro rfl
    rw [cc_comp2]
    simp only [comp2]
    rw [show (∑ a, ∑ b, turn 0 a * turn 1 b * cc (W a b)) = ∑ a, ∑ b, turn 0 a * turn 1 b * (-(W (!a) (!b))) from by
      refine Finset.sum_congr rfl fun a _ => Finset.sum_congr rfl fun b _ => ?_
      rw [hk a b]
      congr 1
      cases a <;> cases b <;> simp [bz]]
    simp [Fintype.sum_bool, turn]; ring

/-- The two-leg function of a first-class contribution; its first leg carries the frequency `-w`. -/
def pairFn (ch : Ch) (V : Contour) (l1 l2 : Bool) : ℂ :=
  match ch with
  | .a => V l1 l2 l2 l1
  | .p => V l2 l2 l1 l1
  | .t => V l2 l1 l2 l1

theorem pairFn_kms (ch : Ch) (T w v vp : ℝ) (V : Contour) (h : ThermalIn ch T w v vp V) (l1 l2 : Bool) :
    cc (pairFn ch V l1 l2) = -(bz ((Real.exp (-w / T) : ℝ) : ℂ) l1 * bz ((Real.exp (w / T) : ℝ) : ℂ) l2) *
      pairFn ch V (!l1) (!l2) := by
  have m : ∀ a b s : ℝ, a + b = s → ∀ l, weight T a l * weight T b l = bz ((Real.exp (s / T) : ℝ) : ℂ) l := by
    intro a b s e l
    cases l
    · simp [weight, bz]
    · rw [weight_mul, e]; rfl
  cases ch with
  | a =>
    have := h.kms l1 l2 l2 l1
    simp only [cc, pairFn]
    rw [this]
    have m1 := m (leg Ch.a w v vp 0) (leg Ch.a w v vp 3) (-w) (by simp [leg]; ring) l1
    have m2 := m (leg Ch.a w v vp 1) (leg Ch.a w v vp 2) w (by simp [leg]; ring) l2
    rw [← m1, ← m2]; ring
  | p =>
    have := h.kms l2 l2 l1 l1
    simp only [cc, pairFn]
    rw [this]
    have m1 := m (leg Ch.p w v vp 2) (leg Ch.p w v vp 3) (-w) (by simp [leg]; ring) l1
    have m2 := m (leg Ch.p w v vp 0) (leg Ch.p w v vp 1) w (by simp [leg]; ring) l2
    rw [← m1, ← m2]; ring
  | t =>
    have := h.kms l2 l1 l2 l1
    simp only [cc, pairFn]
    rw [this]
    have m1 := m (leg Ch.t w v vp 1) (leg Ch.t w v vp 3) (-w) (by simp [leg]; ring) l1
    have m2 := m (leg Ch.t w v vp 0) (leg Ch.t w v vp 2) w (by simp [leg]; ring) l2
    rw [← m1, ← m2]; ring

theorem pairFn_comp (ch : Ch) (V : Contour) (hl : LeftMerged ch V) (hr : RightMerged ch V) :
    component V 1 = comp2 (pairFn ch V) 0 1 ∧ component V (slotK1 ch) = comp2 (pairFn ch V) 0 0 ∧
    (∑ a, ∑ b, ∑ c, ∑ d, V a b c d) = ∑ a, ∑ b, pairFn ch V a b := by
  cases ch with
  | a =>
    have z1 : ∀ a d, V a true false d = 0 ∧ V a false true d = 0 :=
      fun a d => ⟨hr _ _ _ _ (by decide), hr _ _ _ _ (by decide)⟩
    have z2 : ∀ b c, V true b c false = 0 ∧ V false b c true = 0 :=
      fun b c => ⟨hl _ _ _ _ (by decide), hl _ _ _ _ (by decide)⟩
    refine ⟨?_, ?_, ?_⟩ <;> simp [component, comp2, Fintype.sum_bool, turn, z1, z2, pairFn, slotK1] <;> try ring
  | p =>
    have z1 : ∀ a b, V a b true false = 0 ∧ V a b false true = 0 :=
      fun a b => ⟨hr _ _ _ _ (by decide), hr _ _ _ _ (by decide)⟩
    have z2 : ∀ c d, V true false c d = 0 ∧ V false true c d = 0 :=
      fun c d => ⟨hl _ _ _ _ (by decide), hl _ _ _ _ (by decide)⟩
    refine ⟨?_, ?_, ?_⟩ <;> simp [component, comp2, Fintype.sum_bool, turn, z1, z2, pairFn, slotK1] <;> try ring
  | t =>
    have z1 : ∀ b d, V true b false d = 0 ∧ V false b true d = 0 :=
      fun b d => ⟨hr _ _ _ _ (by decide), hr _ _ _ _ (by decide)⟩
    have z2 : ∀ a c, V a true c false = 0 ∧ V a false c true = 0 :=
      fun a c => ⟨hl _ _ _ _ (by decide), hl _ _ _ _ (by decide)⟩
    refine ⟨?_, ?_, ?_⟩ <;> simp [component, comp2, Fintype.sum_bool, turn, z1, z2, pairFn, slotK1] <;> try ring

/-- **C112** (first class). -/
theorem c112_first (ch : Ch) (T w v vp : ℝ) (hT : 0 < T) (V : Contour) (hl : LeftMerged ch V) (hr : RightMerged ch V)
    (h : ThermalIn ch T w v vp V) : cellK1 ch T w (component V) = component V := by
  obtain ⟨k1, k2, k3⟩ := pairFn_comp ch V hl hr
  have hS := h.causal
  rw [k3] at hS
  have K := two_legs hT (pairFn ch V) (pairFn_kms ch T w v vp V h) hS
  funext iK
  unfold cellK1
  split_ifs with c
  · obtain ⟨hw, rfl⟩ := c
    have w0 : w ≠ 0 := by rintro rfl; simp at hw; linarith
    unfold valueK1
    rw [k1, k2]
    exact K.1 w0
  · rfl

/-- **C112** (the older check of the first class): the difference it reports is zero at every frequency. -/
theorem c112_first_check (ch : Ch) (T w v vp : ℝ) (hT : 0 < T) (V : Contour) (hl : LeftMerged ch V)
    (hr : RightMerged ch V) (h : ThermalIn ch T w v vp V) : diffK1 ch T w (component V) = 0 := by
  obtain ⟨k1, k2, k3⟩ := pairFn_comp ch V hl hr
  have hS := h.causal
  rw [k3] at hS
  have K := two_legs hT (pairFn ch V) (pairFn_kms ch T w v vp V h) hS
  unfold diffK1
  rw [show slotCheck ch = slotK1 ch by cases ch <;> rfl]
  have im2 : ∀ z : ℂ, cc z - z = -(2 * Complex.I * z.im) := by
    intro z
    have := Complex.sub_conj z
    simp only [cc]
    rw [← neg_sub, this]; push_cast; ring
  by_cases w0 : w = 0
  · have r := K.2 w0
    rw [← k1] at r
    have : (component V 1).im = 0 := Complex.conj_eq_iff_im.1 r
    rw [this, w0]
    simp [Propagator.effFac, Propagator.fermiFac]
  · have r := K.1 w0
    rw [← k1, ← k2, im2] at r
    rw [← r]
    have f0 : fac w T ≠ 0 := by
      intro e
      have q := fac_boson hT w0
      rw [e, div_zero, Complex.ofReal_zero, zero_mul] at q
      have e2 : (0 : ℝ) = Real.exp (w / T) + 1 := by exact_mod_cast q
      have p := Real.exp_pos (w / T)
      linarith
    have ef : Propagator.effFac true w T 0 0 = fac w T := rfl
    rw [ef]
    have f0' : ((fac w T : ℝ) : ℂ) ≠ 0 := by exact_mod_cast f0
    rw [Complex.ofReal_div, Complex.ofReal_one]
    generalize ((component V 1).im : ℂ) = c
    generalize ((fac w T : ℝ) : ℂ) = f at *
    field_simp
    linear_combination c * Complex.I_sq

end Verif.Fdt
