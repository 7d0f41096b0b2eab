import Verif.Sde.ModelThird
import Verif.Sde.PropsVersions
import Verif.Propagator.PropsDeriv

/-! C163: version 3 of the Schwinger–Dyson equation at imaginary frequencies and its derivative. -/
namespace Verif.Sde.Imag
open Verif.Symmetries Verif.ImagFlow
open Verif.Freqs (Ch Fr)

section
variable {R : Type} [CommRing R] [StarRing R] [Algebra ℝ R] [StarModule ℝ R]
variable {u : Setup R} {bare : VF R} {σ : SF R}

/-- K1 and K2 contain the diagrams whose right pair of legs ends at a bare vertex. -/
def RightBare (u : Setup R) (bare : VF R) (σ : SF R) (K : Classes R) : Prop := ∀ c, c ≠ Ch.t →
  K.k1 false c + K.k2 false c = bub u.core (full bare K.total) bare (pair u.core u.Λ σ) false c

omit [StarRing R] [Algebra ℝ R] [StarModule ℝ R] in
theorem seen_add (version : Bool) (A B : Part R) (v vp : ℤ) :
    seen version (A + B) v vp = seen version A v vp + seen version B v vp := by
  cases version <;> simp [seen]; ring

theorem loopOne_add (version : Bool) (u : ImagFlow.Setup R) (A B : Part R) (G : ℤ → R) :
    loopOne version u (A + B) G = loopOne version u A G + loopOne version u B G := by
  funext v
  rw [Pi.add_apply, (c160_loop_value version u _ G v).2, (c160_loop_value version u _ G v).2,
    (c160_loop_value version u _ G v).2, ← mul_add, ← neg_add, ← smul_add, ← Finset.sum_add_distrib]
  simp only [seen_add, mul_add]

omit [StarModule ℝ R] in
theorem split_sum (u : Setup R) (a b : SF R) : split u (a + b) = split u a + split u b := by
  unfold split
  split
  · rfl
  · funext v
    simp only [realPart, Pi.add_apply, smul_add, star_add]; ring

/-- The loops over the bubbles with the bare vertex on either side agree in channels `a` and `p`. -/
theorem sides_agree {ph : Bool} {L M : VF R} {P : ℤ → ℤ → R} {u : ImagFlow.Setup R} (hL : GoodV ph L) (hM : GoodV ph M)
    (hP : Imag.GoodPair P) {c : Ch} (hc : c ≠ .t) (v vp : ℤ) :
    seen false (bub u L M P false c) v vp = seen false (bub u M L P false c) v vp := by
  have hS := bub_sym (u := u) hL.sym hM.sym hP
  have e : bub u L M P false c 0 Imag.k0 ![v, vp, v, vp] = bub u L M P true c 0 Imag.k0 ![v, vp, v, vp] := by
    have h1 := hS.conjM rfl false c 0 Imag.k0 ![v, vp, v, vp] (by decide)
    have h2 := hS.tr rfl true c 0 Imag.k0 ![v, vp, v, vp] (by decide)
    have hx : xor false (sideFlip c c inOut) = true := by
      cases c
      · decide
      · decide
      · exact absurd rfl hc
    rw [hx] at h1
    have hν : (fun k => -(![v, vp, v, vp] : Fin 4 → ℤ) (inOut k)) = fun k => -(![v, vp, v, vp] : Fin 4 → ℤ) k := by
      funext k; fin_cases k <;> rfl
    rw [hν] at h1
    exact h1.trans h2.symm
  have hm : bub u L M P true c 0 Imag.k0 ![v, vp, v, vp] = bub u M L P false c 0 Imag.k0 ![v, vp, v, vp] := by
    rw [← mirror_bub (u := u) L M P]; rfl
  simp only [seen, Bool.false_eq_true, if_false]
  rw [e, hm]

omit [Algebra ℝ R] [StarModule ℝ R] in
/-- A sum over a propagator with the symmetry of a propagator. -/
theorem sum_line {G : ℤ → R} {ph : Bool} (hG : Odd ph G) (N : Nat) :
    star (∑ n ∈ Finset.Icc (-(N : ℤ)) (N - 1), G (2 * n + 1)) =
      (if ph then -1 else 1) * ∑ n ∈ Finset.Icc (-(N : ℤ)) (N - 1), G (2 * n + 1) := by
  rw [star_sum, Finset.mul_sum]
  refine Finset.sum_bij (fun n _ => -n - 1) ?_ ?_ ?_ ?_
  · intro n hn; rw [Finset.mem_Icc] at *; omega
  · intro a _ b _ h; omega
  · intro n hn; exact ⟨-n - 1, by rw [Finset.mem_Icc] at *; omega, by ring⟩
  · intro n _
    rw [hG, show -(2 * n + 1) = 2 * (-n - 1) + 1 by ring]

/-- C163: the irreducible part of the vertex, which version 3 leaves inside the loop, only changes the constant that is
overwritten by the Hartree term. -/
theorem c163_constant (h : Ready u bare) (hσ : Odd u.core.ph σ) (hr : u.core.ph = true → ∀ r : R, star r = r) {w : R} (hw : star w = w)
    (hb : bare = bareU w) (h2 : IsUnit (2 : R)) (K : Classes R) :
    equation3 u bare σ K = equation3 u 0 σ K := by
  have key : ∀ c, c ≠ Ch.t → split u (raw3 u.core bare K (lineG u.core u.Λ σ) c) =
      split u (raw3 u.core 0 K (lineG u.core u.Λ σ) c) := by
    intro c hc
    have hv : (c == Ch.t) = false := by cases c <;> first | rfl | exact absurd rfl hc
    have hG : Odd u.core.ph (lineG u.core u.Λ σ) := good_G h.lines hσ
    have hs := sum_line hG u.core.pos
    set S := ∑ n ∈ Finset.Icc (-(u.core.pos : ℤ)) (u.core.pos - 1), lineG u.core u.Λ σ (2 * n + 1) with hS
    have hl : ∀ v, loopOne false u.core (bare false c) (lineG u.core u.Λ σ) v =
        -(u.core.T • ((if u.core.ph then -1 else 1) * (S * w))) := by
      intro v
      rw [(c160_loop_value false u.core _ _ v).2, hS, Finset.sum_mul, Finset.mul_sum]
      simp [seen, hb, bareU]
    simp only [raw3, hv, loopOne_add, Pi.zero_apply]
    have h0 : loopOne false u.core (0 : Part R) (lineG u.core u.Λ σ) = 0 := by
      funext v
      rw [(c160_loop_value false u.core _ _ v).2]; simp [seen]
    rw [h0, zero_add, split_sum]
    refine add_eq_right.2 ?_
    unfold split
    by_cases hp : u.core.ph = true
    · rw [if_pos hp]
      funext v
      have : S = 0 := by
        rw [hr hp, hp, if_pos rfl] at hs
        obtain ⟨i, hi⟩ := h2
        have h3 : (i : R) * S = 0 := by rw [hi]; linear_combination hs
        exact (Units.mul_right_eq_zero i).1 h3
      rw [hl, this]; simp
    · rw [if_neg hp]
      funext v
      rw [hl, hl, hl]
      rw [if_neg hp, one_mul] at hs
      have hst : star (-(u.core.T • ((if u.core.ph then -1 else 1) * (S * w)))) =
          -(u.core.T • ((if u.core.ph then -1 else 1) * (S * w))) := by
        simp only [hp]
        simp [star_smul, hs, hw, mul_comm]
      simp only [realPart, star_smul, star_add, hst, star_trivial]
      rw [← two_smul ℝ (-(u.core.T • _)), smul_smul, ← two_smul ℝ, smul_smul, smul_smul]
      norm_num
  simp only [equation3, key .a (by decide), key .p (by decide)]

/-- C163: if K1 and K2 of the vertex are the bubbles of the vertex with the bare vertex on the right, version 3 of the
equation gives the same self-energy as version 2, whatever the range of the frequency sums. -/
theorem c163_version (h : Ready u bare) (hσ : Odd u.core.ph σ) (hr : u.core.ph = true → ∀ r : R, star r = r) {w : R} (hw : star w = w)
    (hb : bare = bareU w) (h2 : IsUnit (2 : R)) {K : Classes R} (hV : GoodV u.core.ph K.total)
    (hK : RightBare u bare σ K) : equation3 u bare σ K = dynamic false u bare σ K.total := by
  have hP : Imag.GoodPair (pair u.core u.Λ σ) := good_pair rfl h.lines hσ
  have key : ∀ c, c ≠ Ch.t → raw3 u.core 0 K (lineG u.core u.Λ σ) c =
      loopOne (c == .t) u.core ((meanBub u bare (full bare K.total) (pair u.core u.Λ σ)) false c) (lineG u.core u.Λ σ) := by
    intro c hc
    have hv : (c == Ch.t) = false := by cases c <;> first | rfl | exact absurd rfl hc
    simp only [raw3, hv, hK c hc, meanBub]
    funext v
    rw [(c160_loop_value false u.core _ _ v).2, (c160_loop_value false u.core _ _ v).2]
    refine congrArg (fun x : R => (if false = true then -1 else 1) * -(u.core.T • x)) (Finset.sum_congr rfl fun n _ => ?_)
    refine congrArg (fun x : R => (if u.core.ph = true then -1 else 1) * (lineG u.core u.Λ σ (2 * n + 1) * x)) ?_
    have := sides_agree (u := u.core) h.bare (full_good h.bare hV) hP hc v (2 * n + 1)
    simp only [seen, Bool.false_eq_true, if_false] at this
    simp only [seen, Bool.false_eq_true, if_false, Pi.add_apply, Pi.zero_apply, Pi.smul_apply, zero_add]
    rw [this, ← two_smul ℝ, smul_smul]
    norm_num
  rw [c163_constant h hσ hr hw hb h2]
  simp only [equation3, dynamic, Bool.false_eq_true, if_false, equation2, closed, key .a (by decide), key .p (by decide)]

end

/-! ### Derivative -/

section
variable {𝕜 : Type} [RCLike 𝕜]

/-- The same computation at another value of the flow parameter. -/
def Setup.at (u : Setup 𝕜) (Λ : ℝ) : Setup 𝕜 := { u with Λ := Λ }

/-- The sum of single-scale propagator and extension is the derivative of the propagator along `σ`. -/
def DiffLines (u : ImagFlow.Setup 𝕜) (σ : ℝ → SF 𝕜) (dσ : SF 𝕜) (Λ : ℝ) : Prop :=
  ∀ n : ℤ, HasDerivAt (fun l => lineG u l (σ l) (2 * n + 1)) (lineS u Λ (σ Λ) dσ (2 * n + 1)) Λ

/-- The classes `dK` are the derivatives of `K`, at every argument. -/
structure DiffClasses (K : ℝ → Classes 𝕜) (dK : Classes 𝕜) (Λ : ℝ) : Prop where
  k1 : ∀ h c s α ν, HasDerivAt (fun l => (K l).k1 h c s α ν) (dK.k1 h c s α ν) Λ
  k2 : ∀ h c s α ν, HasDerivAt (fun l => (K l).k2 h c s α ν) (dK.k2 h c s α ν) Λ

variable {u : Setup 𝕜} {bare : VF 𝕜} {σ : ℝ → SF 𝕜} {dσ : SF 𝕜} {K : ℝ → Classes 𝕜} {dK : Classes 𝕜} {Λ : ℝ}

theorem raw3_deriv (hG : DiffLines u.core σ dσ Λ) (hK : DiffClasses K dK Λ) {c : Ch} (hc : c ≠ .t) (v : ℤ) :
    HasDerivAt (fun l => raw3 u.core bare (K l) (lineG u.core l (σ l)) c v)
      (raw3 u.core bare (K Λ) (lineS u.core Λ (σ Λ) dσ) c v + raw3 u.core 0 dK (lineG u.core Λ (σ Λ)) c v) Λ := by
  have hv : (c == Ch.t) = false := by cases c <;> first | rfl | exact absurd rfl hc
  simp only [raw3, hv, (c160_loop_value false u.core _ _ v).2, seen, Bool.false_eq_true, if_false, one_mul, Pi.add_apply,
    Pi.zero_apply, zero_add]
  rw [← neg_add, ← smul_add, ← Finset.sum_add_distrib]
  refine HasDerivAt.neg (HasDerivAt.const_smul u.core.T (HasDerivAt.fun_sum (A := fun n l => (if u.core.ph = true then (-1 : 𝕜) else 1) *
    (lineG u.core l (σ l) (2 * n + 1) * (bare false c 0 Imag.k0 ![v, 2 * n + 1, v, 2 * n + 1] +
      ((K l).k1 false c 0 Imag.k0 ![v, 2 * n + 1, v, 2 * n + 1] + (K l).k2 false c 0 Imag.k0 ![v, 2 * n + 1, v, 2 * n + 1])))) fun n _ => ?_))
  have h1 := (hG n).mul ((((hK.k1 false c 0 Imag.k0 ![v, 2 * n + 1, v, 2 * n + 1]).add
    (hK.k2 false c 0 Imag.k0 ![v, 2 * n + 1, v, 2 * n + 1]))).const_add (bare false c 0 Imag.k0 ![v, 2 * n + 1, v, 2 * n + 1]))
  refine (h1.const_mul (if u.core.ph = true then (-1 : 𝕜) else 1)).congr_deriv ?_
  simp only [Pi.add_apply]
  ring

/-- C163: the differentiated equation is the derivative of version 3 along every differentiable path of states, entries and
asymptotic value together. -/
theorem c163_derivative (hG : DiffLines u.core σ dσ Λ) (hK : DiffClasses K dK Λ) (v : ℤ) :
    HasDerivAt (fun l => ((0.5 : ℝ) • (raw3 u.core bare (K l) (lineG u.core l (σ l)) .a +
      raw3 u.core bare (K l) (lineG u.core l (σ l)) .p)) v) (diffSDE (u.at Λ) bare (σ Λ) (K Λ) dσ dK v) Λ := by
  have := ((raw3_deriv (bare := bare) hG hK (c := .a) (by decide) v).add
    (raw3_deriv (bare := bare) hG hK (c := .p) (by decide) v)).const_smul (0.5 : ℝ)
  refine this.congr_deriv ?_
  simp only [diffSDE, Setup.at, Pi.add_apply, Pi.smul_apply]
  congr 1
  ring

theorem split_deriv (u : Setup 𝕜) {f : ℝ → SF 𝕜} {f' : SF 𝕜} (h : ∀ v, HasDerivAt (fun l => f l v) (f' v) Λ) (v : ℤ) :
    HasDerivAt (fun l => split (u.at l) (f l) v) (split u f' v) Λ := by
  show HasDerivAt (fun l => split u (f l) v) (split u f' v) Λ
  unfold split
  split
  · exact h v
  · refine (h v).sub ?_
    have h1 := ((h u.ends.1).add (h u.ends.2)).const_smul (0.5 : ℝ)
    exact (h1.add h1.star).const_smul (0.5 : ℝ)

/-- C163: the part of the differentiated equation that depends on frequency is the derivative of the corresponding part of
version 3. -/
theorem c163_derivative_dynamic (hG : DiffLines u.core σ dσ Λ) (hK : DiffClasses K dK Λ) (v : ℤ) :
    HasDerivAt (fun l => equation3 (u.at l) bare (σ l) (K l) v) (split u (diffSDE (u.at Λ) bare (σ Λ) (K Λ) dσ dK) v) Λ := by
  have e : (fun l => equation3 (u.at l) bare (σ l) (K l) v) = fun l => split (u.at l) ((0.5 : ℝ) •
      (raw3 u.core bare (K l) (lineG u.core l (σ l)) .a + raw3 u.core bare (K l) (lineG u.core l (σ l)) .p)) v := by
    funext l
    show equation3 (u.at l) bare (σ l) (K l) v = split u _ v
    unfold equation3
    show ((0.5 : ℝ) • (split u (raw3 u.core bare (K l) (lineG u.core l (σ l)) .a) +
      split u (raw3 u.core bare (K l) (lineG u.core l (σ l)) .p))) v = _
    unfold split
    split
    · rfl
    · simp only [realPart, Pi.add_apply, Pi.smul_apply, smul_add, star_add, star_smul, star_trivial]
      module
  rw [e]
  exact split_deriv u (fun x => c163_derivative hG hK x) v

theorem den_ne {c g Λ s : ℝ} {v : ℝ} (hc : 0 < c) (hg : 0 ≤ g) (hΛ : 0 ≤ Λ) (hv : v ≠ 0) (hs : s * v ≤ 0) :
    v * c + g * 0.5 * Propagator.sign v + Λ * 0.5 * Propagator.sign v - s ≠ 0 := by
  rcases lt_or_gt_of_ne hv with h | h
  · have hsgn : Propagator.sign v = -1 := by simp [Propagator.sign, h, not_lt.2 h.le]
    have : 0 ≤ s := by
      by_contra hn
      push Not at hn
      nlinarith [mul_pos_of_neg_of_neg hn h]
    rw [hsgn]
    nlinarith [mul_neg_of_neg_of_pos h hc]
  · have hsgn : Propagator.sign v = 1 := by simp [Propagator.sign, h, not_lt.2 h.le]
    have : s ≤ 0 := by
      by_contra hn
      push Not at hn
      nlinarith [mul_pos hn h]
    rw [hsgn]
    nlinarith [mul_pos h hc]

/-- C163: the propagators of the code with the hybridization as regulator have the required derivatives, for complex
values. -/
theorem c163_lines (p : Propagator.Par) (hT : 0 < p.T) (hg : 0 ≤ p.Gam) {Λ : ℝ} (hΛ : 0 ≤ Λ) {σ : ℝ → SF ℂ} {dσ : SF ℂ}
    (hσ : ∀ v, HasDerivAt (fun l => σ l v) (dσ v) Λ) (hs : ∀ n : ℤ, (σ Λ (2 * n + 1)).im * (2 * n + 1 : ℤ) ≤ 0) (pos : Nat) (ph : Bool) :
    DiffLines ⟨pos, p.T, ph, linesC .r2 p⟩ σ dσ Λ := by
  intro n
  have hc : 0 < Real.pi * p.T := mul_pos Real.pi_pos hT
  have hv0 : ((2 * n + 1 : ℤ) : ℝ) ≠ 0 := by exact_mod_cast (by omega : (2 * n + 1 : ℤ) ≠ 0)
  refine (Propagator.c66_matsubara false (Real.pi * p.T) { p with v := (2 * n + 1 : ℤ) } (fun l => σ l (2 * n + 1)) _ Λ
    (hσ (2 * n + 1))).1 fun h0 => den_ne hc hg hΛ hv0 (hs n) ?_
  have := congrArg Complex.im h0
  simpa [Propagator.g0Minv] using this

/-- C163: the same for real values. -/
theorem c163_lines_real (p : Propagator.Par) (hT : 0 < p.T) (hg : 0 ≤ p.Gam) {Λ : ℝ} (hΛ : 0 ≤ Λ) {σ : ℝ → SF ℝ} {dσ : SF ℝ}
    (hσ : ∀ v, HasDerivAt (fun l => σ l v) (dσ v) Λ) (hs : ∀ n : ℤ, σ Λ (2 * n + 1) * (2 * n + 1 : ℤ) ≤ 0) (pos : Nat) (ph : Bool) :
    DiffLines ⟨pos, p.T, ph, linesR .r2 p⟩ σ dσ Λ := by
  intro n
  have hc : 0 < Real.pi * p.T := mul_pos Real.pi_pos hT
  have hv0 : ((2 * n + 1 : ℤ) : ℝ) ≠ 0 := by exact_mod_cast (by omega : (2 * n + 1 : ℤ) ≠ 0)
  have h := (Propagator.c66_matsubara true (Real.pi * p.T) { p with v := (2 * n + 1 : ℤ) } (fun l => (σ l (2 * n + 1) : ℂ)) _ Λ
    (hσ (2 * n + 1)).ofReal_comp).1 fun h0 => den_ne hc hg hΛ hv0 (hs n) (by
      have := congrArg Complex.re h0
      simpa [Propagator.g0Minv] using this)
  have h2 := Complex.reCLM.hasFDerivAt.comp_hasDerivAt Λ h
  refine h2.congr_deriv ?_
  have hr : ∃ x : ℝ, Propagator.gM2 true (Real.pi * p.T) (Propagator.Par.at { p with v := (2 * n + 1 : ℤ) } Λ)
      (σ Λ (2 * n + 1)) = x := by
    simp only [Propagator.gM2, Propagator.g0Minv, if_true]
    exact ⟨_, by rw [← Complex.ofReal_add, ← Complex.ofReal_sub, ← Complex.ofReal_one, ← Complex.ofReal_div]⟩
  obtain ⟨x, hx⟩ := hr
  have hx' : Propagator.gM2 true (Real.pi * p.T) ({ p with Lam := Λ, v := ((2 * n + 1 : ℤ) : ℝ) } : Propagator.Par)
      (σ Λ (2 * n + 1)) = x := hx
  simp only [lineS, lineE, lineG, linesR, hx, hx', Complex.reCLM_apply, Complex.add_re]
  rw [← Complex.ofReal_mul, ← Complex.ofReal_mul, Complex.ofReal_re, Complex.ofReal_re]
  rfl

end

/-- Non-vacuity: for every vertex with the symmetries there are classes with the relation assumed in `c163_version`. -/
example (pos : Nat) (T Gam Λ U : ℝ) (ends : ℤ × ℤ) (σ : SF ℂ) (hσ : Odd false σ) {V : VF ℂ} (hV : GoodV false V) :
    ∃ K : Classes ℂ, K.total = V ∧ equation3 (halfC pos T Gam Λ U ends) (bareU ((-U : ℝ) : ℂ)) σ K =
      dynamic false (halfC pos T Gam Λ U ends) (bareU ((-U : ℝ) : ℂ)) σ V := by
  set u := halfC pos T Gam Λ U ends
  set b := bub u.core (full (bareU ((-U : ℝ) : ℂ)) V) (bareU ((-U : ℝ) : ℂ)) (pair u.core u.Λ σ) with hb
  have ht : (⟨b, 0, 0, V - b⟩ : Classes ℂ).total = V := by simp [Classes.total]
  refine ⟨⟨b, 0, 0, V - b⟩, ht, ?_⟩
  have := c163_version (u := u) (K := ⟨b, 0, 0, V - b⟩) ⟨bareU_good _, c158_lines .r2 _⟩ hσ (fun h => by cases h)
    (w := ((-U : ℝ) : ℂ)) (by simp) rfl (by norm_num) (by rw [ht]; exact hV) (fun c _ => by rw [ht]; simp [hb])
  rw [this, ht]

/-- Non-vacuity: the self-energy grows with the flow parameter, K1 with its square. -/
example (pos : Nat) (T Gam U : ℝ) (ends : ℤ × ℤ) (hT : 0 < T) (hG : 0 ≤ Gam) (v : ℤ) :
    HasDerivAt (fun l => equation3 ((halfC pos T Gam 1 U ends).at l) (bareU ((-U : ℝ) : ℂ)) (fun _ => (l : ℂ))
        ⟨fun _ _ _ _ _ => (l : ℂ) ^ 2, 0, 0, 0⟩ v)
      (split (halfC pos T Gam 1 U ends) (diffSDE ((halfC pos T Gam 1 U ends).at 1) (bareU ((-U : ℝ) : ℂ)) (fun _ => ((1 : ℝ) : ℂ))
        ⟨fun _ _ _ _ _ => ((1 : ℝ) : ℂ) ^ 2, 0, 0, 0⟩ (fun _ => 1) ⟨fun _ _ _ _ _ => 2, 0, 0, 0⟩) v) (1 : ℝ) := by
  have h1 : HasDerivAt (fun l : ℝ => (l : ℂ)) 1 1 := by simpa using (hasDerivAt_id (1 : ℝ)).ofReal_comp
  refine c163_derivative_dynamic (σ := fun l _ => (l : ℂ)) (K := fun l => ⟨fun _ _ _ _ _ => (l : ℂ) ^ 2, 0, 0, 0⟩)
    (c163_lines ⟨0, -(U / 2), Gam, T, 0, 0⟩ hT hG zero_le_one (fun _ => h1) (fun n => by simp) pos false)
    ⟨fun _ _ _ _ _ => by
      have h := h1.fun_pow 2
      norm_num at h
      exact h, fun _ _ _ _ _ => hasDerivAt_const _ _⟩ v

end Verif.Sde.Imag
