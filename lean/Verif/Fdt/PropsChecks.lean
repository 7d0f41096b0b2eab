import Mathlib.Analysis.SpecialFunctions.Exp
import Mathlib.Analysis.Normed.Group.Basic
import Mathlib.Topology.Order.OrderClosed
import Mathlib.Topology.Instances.Complex
import Verif.Fdt.Props
import Verif.Fdt.Checks

/-
C112 (buffers), C114 (zero temperature), C115 (what the comparison detects), C116 (self-energy), C117 (Ward identity),
C118 (layers).
-/
namespace Verif.Fdt
open Freqs (Ch)
open Filter Topology

/-! ### C112: whole buffers -/

/-- **C112** (all loops of the first class). -/
theorem c112_first_all (ch : Ch) (nw nIn : Nat) (freq : Nat → ℝ) (T : ℝ) (hT : 0 < T)
    (K : Nat → Nat → Nat → Nat → ℂ)
    (hK : ∀ spin iw iin, iw < nw → ∃ V v vp, LeftMerged ch V ∧ RightMerged ch V ∧ ThermalIn ch T (freq iw) v vp V ∧
      ∀ iK, K spin iw iK iin = component V iK) :
    computeK1 ch nw nIn freq T K = K := by
  funext spin iw iK iin
  unfold computeK1
  split_ifs with c
  · obtain ⟨V, v, vp, hl, hr, h, e⟩ := hK spin iw iin c.1
    have : (fun k => K spin iw k iin) = component V := by funext k; exact e k
    rw [this, c112_first ch T _ v vp hT V hl hr h, e]
  · rfl

/-- **C112** (all loops of the second class). -/
theorem c112_second_all (ch : Ch) (nw nv nIn : Nat) (freq : Nat → Nat → ℝ × ℝ) (T : ℝ) (hT : 0 < T)
    (K : Nat → Nat → Nat → Nat → Nat → ℂ)
    (hK : ∀ spin iw iv iin, iw < nw → iv < nv → ∃ V vp, RightMerged ch V ∧
      ThermalIn ch T (freq iw iv).1 (freq iw iv).2 vp V ∧ ∀ iK, K spin iw iv iK iin = component V iK) :
    computeK2 ch nw nv nIn freq T K = K := by
  funext spin iw iv iK iin
  unfold computeK2
  split_ifs with c
  · obtain ⟨V, vp, hr, h, e⟩ := hK spin iw iv iin c.1 c.2.1
    have : (fun k => K spin iw iv k iin) = component V := by funext k; exact e k
    rw [this, c112_second ch T _ _ vp hT V hr h, e]
  · rfl

/-- **C112** (all loops of the third class). -/
theorem c112_third_all (ch : Ch) (nw nv nvp nSpin nIn : Nat) (freq : Nat → Nat → Nat → ℝ × ℝ × ℝ) (T : ℝ)
    (K : Nat → Nat → Nat → Nat → Nat → Nat → ℂ)
    (hK : ∀ spin iw iv ivp iin, iw < nw → iv < nv → ivp < nvp → ∃ V,
      ThermalIn ch T (freq iw iv ivp).1 (freq iw iv ivp).2.1 (freq iw iv ivp).2.2 V ∧
      ∀ iK, K spin iw iv ivp iK iin = component V iK) :
    computeK3 ch nw nv nvp nSpin nIn freq T K = K := by
  funext spin iw iv ivp iK iin
  unfold computeK3
  split_ifs with c
  · obtain ⟨V, h, e⟩ := hK spin iw iv ivp iin c.1 c.2.1 c.2.2.1
    have : (fun k => K spin iw iv ivp k iin) = component V := by funext k; exact e k
    rw [this, c112_third ch T _ _ _ V h, e]
  · rfl

/-- **C112** (extent of the loops): exactly the entries inside the stated ranges are recomputed, whatever is stored;
all others are left as they are. In the first and second class the spin runs only up to the number of internal indices. -/
theorem c112_extent (ch : Ch) (T : ℝ) (nw nv nvp nSpin nIn : Nat) :
    (∀ freq K spin iw iK iin, (iw < nw ∧ spin < nIn ∧ iin < nIn → computeK1 ch nw nIn freq T K spin iw iK iin =
        cellK1 ch T (freq iw) (fun k => K spin iw k iin) iK) ∧
      (¬ (iw < nw ∧ spin < nIn ∧ iin < nIn) → computeK1 ch nw nIn freq T K spin iw iK iin = K spin iw iK iin)) ∧
    (∀ freq K spin iw iv iK iin, (iw < nw ∧ iv < nv ∧ spin < nIn ∧ iin < nIn →
        computeK2 ch nw nv nIn freq T K spin iw iv iK iin =
        cellK2 ch T (freq iw iv).1 (freq iw iv).2 (fun k => K spin iw iv k iin) iK) ∧
      (¬ (iw < nw ∧ iv < nv ∧ spin < nIn ∧ iin < nIn) →
        computeK2 ch nw nv nIn freq T K spin iw iv iK iin = K spin iw iv iK iin)) ∧
    ∀ freq K spin iw iv ivp iK iin, (iw < nw ∧ iv < nv ∧ ivp < nvp ∧ spin < nSpin ∧ iin < nIn →
        computeK3 ch nw nv nvp nSpin nIn freq T K spin iw iv ivp iK iin =
        cellK3 ch T (freq iw iv ivp).1 (freq iw iv ivp).2.1 (freq iw iv ivp).2.2 (fun k => K spin iw iv ivp k iin) iK) ∧
      (¬ (iw < nw ∧ iv < nv ∧ ivp < nvp ∧ spin < nSpin ∧ iin < nIn) →
        computeK3 ch nw nv nvp nSpin nIn freq T K spin iw iv ivp iK iin = K spin iw iv ivp iK iin) := by
  refine ⟨fun freq K spin iw iK iin => ⟨fun h => ?_, fun h => ?_⟩,
    fun freq K spin iw iv iK iin => ⟨fun h => ?_, fun h => ?_⟩,
    fun freq K spin iw iv ivp iK iin => ⟨fun h => ?_, fun h => ?_⟩⟩
  · rw [computeK1, if_pos h]
  · rw [computeK1, if_neg h]
  · rw [computeK2, if_pos h]
  · rw [computeK2, if_neg h]
  · rw [computeK3, if_pos h]
  · rw [computeK3, if_neg h]

/-- A response function in thermal equilibrium: the branches of the left and of the right pair are equal. -/
noncomputable def response (T w : ℝ) (l1 l2 : Bool) : ℂ :=
  match l1, l2 with
  | false, true => Complex.I
  | true, false => Complex.I * ((Real.exp (-w / T) : ℝ) : ℂ)
  | _, _ => -Complex.I * (1 + ((Real.exp (-w / T) : ℝ) : ℂ)) / 2

/-- The corresponding function of four legs. -/
noncomputable def responseV (ch : Ch) (T w : ℝ) : Contour := fun a b c d =>
  match ch with
  | .a => if a = d ∧ b = c then response T w a b else 0
  | .p => if a = b ∧ c = d then response T w c a else 0
  | .t => if b = d ∧ a = c then response T w b a else 0

theorem response_kms (T w : ℝ) (l1 l2 : Bool) : cc (response T w l1 l2) =
    -(bz ((Real.exp (-w / T) : ℝ) : ℂ) l1 * bz ((Real.exp (w / T) : ℝ) : ℂ) l2) * response T w (!l1) (!l2) := by
  have e : ((Real.exp (-w / T) : ℝ) : ℂ) * ((Real.exp (w / T) : ℝ) : ℂ) = 1 := by
    rw [← Complex.ofReal_mul, ← Real.exp_add, ← add_div]; simp
  have cr : ∀ z : ℝ, (starRingEnd ℂ) (z : ℂ) = z := Complex.conj_ofReal
  generalize ((Real.exp (w / T) : ℝ) : ℂ) = E at *
  have cE := cr (Real.exp (-w / T))
  have c2 : (starRingEnd ℂ) 2 = 2 := Complex.conj_ofNat 2
  cases l1 <;> cases l2 <;>
    simp only [response, cc, bz, Bool.not_true, Bool.not_false, if_true, Bool.false_eq_true, if_false, map_mul, map_neg, map_div₀,
      map_add, map_one, Complex.conj_I, cE, c2]
  · ring
  · linear_combination Complex.I * e
  · ring
  · linear_combination (-Complex.I * (1 + ((Real.exp (-w / T) : ℝ) : ℂ)) / 2) * e

theorem responseV_thermal (ch : Ch) (T w v vp : ℝ) :
    LeftMerged ch (responseV ch T w) ∧ RightMerged ch (responseV ch T w) ∧ ThermalIn ch T w v vp (responseV ch T w) := by
  have m : ∀ a b s : ℝ, a + b = s → ∀ l, weight T a l * weight T b l = bz ((Real.exp (s / T) : ℝ) : ℂ) l := by
    intro a b s e l
    cases l
    · simp [weight, bz]
    · rw [weight_mul, e]; rfl
  refine ⟨?_, ?_, ?_, ?_⟩
  · cases ch <;> intro a b c d h <;> simp [responseV, h]
  · cases ch <;> intro a b c d h <;> simp [responseV, h]
  · intro a b c d
    cases ch with
    | a =>
      simp only [responseV]
      by_cases e : a = d ∧ b = c
      · obtain ⟨rfl, rfl⟩ := e
        simp only [and_self, if_true]
        have := response_kms T w a b
        simp only [cc] at this
        rw [this, ← m (leg Ch.a w v vp 0) (leg Ch.a w v vp 3) (-w) (by simp [leg]; ring) a,
          ← m (leg Ch.a w v vp 1) (leg Ch.a w v vp 2) w (by simp [leg]; ring) b]
        ring
      · rw [if_neg e, if_neg (by simpa using e)]; simp
    | p =>
      simp only [responseV]
      by_cases e : a = b ∧ c = d
      · obtain ⟨rfl, rfl⟩ := e
        simp only [and_self, if_true]
        have := response_kms T w c a
        simp only [cc] at this
        rw [this, ← m (leg Ch.p w v vp 2) (leg Ch.p w v vp 3) (-w) (by simp [leg]; ring) c,
          ← m (leg Ch.p w v vp 0) (leg Ch.p w v vp 1) w (by simp [leg]; ring) a]
        ring
      · rw [if_neg e, if_neg (by simpa using e)]; simp
    | t =>
      simp only [responseV]
      by_cases e : b = d ∧ a = c
      · obtain ⟨rfl, rfl⟩ := e
        simp only [and_self, if_true]
        have := response_kms T w b a
        simp only [cc] at this
        rw [this, ← m (leg Ch.t w v vp 1) (leg Ch.t w v vp 3) (-w) (by simp [leg]; ring) b,
          ← m (leg Ch.t w v vp 0) (leg Ch.t w v vp 2) w (by simp [leg]; ring) a]
        ring
      · rw [if_neg e, if_neg (by simpa using e)]; simp
  · cases ch <;> simp [Fintype.sum_bool, responseV, response] <;> ring

/-- The hypotheses of C112 are met by a function whose components do not vanish. -/
example : LeftMerged .a (responseV .a 1 30) ∧ RightMerged .a (responseV .a 1 30) ∧
    ThermalIn .a 1 30 2 3 (responseV .a 1 30) ∧ component (responseV .a 1 30) 3 ≠ 0 := by
  obtain ⟨h1, h2, h3⟩ := responseV_thermal .a 1 30 2 3
  refine ⟨h1, h2, h3, ?_⟩
  simp only [component, turn, responseV, response, Fintype.sum_bool]
  simp
  have p := Real.exp_pos (-30)
  intro e
  have e2 : Complex.I * (((-(2 * (1 + Real.exp (-30))) : ℝ)) : ℂ) = 0 := by
    push_cast; linear_combination e
  rcases mul_eq_zero.1 e2 with h | h
  · exact Complex.I_ne_zero h
  · have : -(2 * (1 + Real.exp (-30))) = 0 := by exact_mod_cast h
    linarith


/-- The hypotheses of C113 are met by a function that does not vanish. -/
example : Hermitian (responseV .t 1 0) ∧ ThermalIn .t 1 0 2 3 (responseV .t 1 0) ∧ responseV .t 1 0 true false true false ≠ 0 := by
  refine ⟨?_, (responseV_thermal .t 1 0 2 3).2.2, ?_⟩
  · intro a b c d
    cases a <;> cases b <;> cases c <;> cases d <;> simp [responseV, response, Complex.conj_ofNat] <;> ring
  · simp [responseV, response]

/-! ### C114: zero temperature -/

/-- Number of the component with the given branches. -/
def number (a b c d : Bool) : Nat := 8 * a.toNat + 4 * b.toNat + 2 * c.toNat + d.toNat

/-- Sum of the frequencies of the legs on the backward branch. -/
noncomputable def backward (ch : Ch) (w v vp : ℝ) (a b c d : Bool) : ℝ :=
  (if a then leg ch w v vp 0 else 0) + (if b then leg ch w v vp 1 else 0) + (if c then leg ch w v vp 2 else 0)
    + (if d then leg ch w v vp 3 else 0)

theorem zeroByFDT_iff (ch : Ch) (w v vp : ℝ) (a b c d : Bool) :
    zeroByFDT ch (number a b c d) w v vp = true ↔
      backward ch w v vp a b c d < 1 / 10 ^ 15 ∧ ¬(number a b c d = 0 ∨ number a b c d = 15) := by
  have e : ∀ (ch : Ch), (zeroByFDT ch (number a b c d) w v vp = true ↔
      backward ch w v vp a b c d < 1 / 10 ^ 15 ∧ ¬(number a b c d = 0 ∨ number a b c d = 15)) := by
    intro ch
    unfold zeroByFDT
    simp only [decide_eq_true_eq]
    refine and_congr ?_ Iff.rfl
    have : ∀ x y : ℝ, x = y → (x < 1 / 10 ^ 15 ↔ y < 1 / 10 ^ 15) := by rintro x y rfl; rfl
    apply this
    cases ch <;> cases a <;> cases b <;> cases c <;> cases d <;> simp [number, backward, leg] <;> try ring
  exact e ch

/-- Absolute values of opposite branches. -/
theorem abs_branches {T ν1 ν2 ν3 ν4 : ℝ} {V : Contour} (h : Thermal T ν1 ν2 ν3 ν4 V) (a b c d : Bool) :
    ‖V a b c d‖ = Real.exp (((if a then ν1 else 0) + (if b then ν2 else 0) + (if c then ν3 else 0)
      + (if d then ν4 else 0)) / T) * ‖V (!a) (!b) (!c) (!d)‖ := by
  have nw : ∀ ν l, ‖weight T ν l‖ = Real.exp ((if l then ν else 0) / T) := by
    intro ν l
    cases l
    · simp [weight]
    · simp only [weight, if_true, norm_neg]
      rw [Complex.norm_real, Real.norm_eq_abs, abs_of_pos (Real.exp_pos _)]
  have := congrArg norm (h.kms a b c d)
  rw [RCLike.norm_conj] at this
  rw [this, norm_mul, norm_neg, norm_mul, norm_mul, norm_mul, nw, nw, nw, nw, ← Real.exp_add, ← Real.exp_add,
    ← Real.exp_add, ← add_div, ← add_div, ← add_div]

/-- **C114** (partial): as the temperature goes to zero, a component whose backward legs carry a negative frequency in
total vanishes, and the program sets it to zero; missing: the components with total frequency between 0 and `10⁻¹⁵`. -/
theorem c114_zero_partial (ch : Ch) (w v vp : ℝ) (T : Nat → ℝ) (hT : ∀ n, 0 < T n) (h0 : Tendsto T atTop (𝓝 0))
    (V : Nat → Contour) (h : ∀ n, ThermalIn ch (T n) w v vp (V n)) (V0 : Contour)
    (hV : ∀ a b c d, Tendsto (fun n => V n a b c d) atTop (𝓝 (V0 a b c d))) (a b c d : Bool)
    (hb : backward ch w v vp a b c d < 0) :
    V0 a b c d = 0 ∧ zeroByFDT ch (number a b c d) w v vp = true := by
  constructor
  · have k : ∀ n, ‖V n a b c d‖ = Real.exp (backward ch w v vp a b c d / T n) * ‖V n (!a) (!b) (!c) (!d)‖ :=
      fun n => abs_branches (h n) a b c d
    have l1 : Tendsto (fun n => ‖V n a b c d‖) atTop (𝓝 ‖V0 a b c d‖) := (hV a b c d).norm
    have l2 : Tendsto (fun n => ‖V n (!a) (!b) (!c) (!d)‖) atTop (𝓝 ‖V0 (!a) (!b) (!c) (!d)‖) := (hV _ _ _ _).norm
    have l3 : Tendsto (fun n => backward ch w v vp a b c d / T n) atTop atBot := by
      have ti : Tendsto (fun n => (T n)⁻¹) atTop atTop :=
        (tendsto_inv_nhdsGT_zero).comp (tendsto_nhdsWithin_iff.2 ⟨h0, Eventually.of_forall hT⟩)
      simp only [div_eq_mul_inv]
      exact Tendsto.const_mul_atTop_of_neg hb ti
    have l4 : Tendsto (fun n => Real.exp (backward ch w v vp a b c d / T n)) atTop (𝓝 0) :=
      Real.tendsto_exp_atBot.comp l3
    have l5 := l4.mul l2
    rw [zero_mul] at l5
    have l6 : Tendsto (fun n => ‖V n a b c d‖) atTop (𝓝 0) := by
      refine l5.congr fun n => (k n).symm
    have := tendsto_nhds_unique l1 l6
    exact norm_eq_zero.1 this
  · rw [zeroByFDT_iff]
    refine ⟨lt_trans hb (by positivity), ?_⟩
    have s := leg_sum ch w v vp
    rintro (e | e)
    · cases a <;> cases b <;> cases c <;> cases d <;> simp [number] at e
      simp [backward] at hb
    · cases a <;> cases b <;> cases c <;> cases d <;> simp [number] at e
      simp [backward, s] at hb

/-- **C114** refuted at vanishing total frequency: a component is set to zero although it equals `i` at every
temperature. -/
theorem c114_boundary_refuted :
    ∃ V : Contour, (∀ T : ℝ, 0 < T → ThermalIn .a T 0 0 0 V) ∧ V false true true false = Complex.I ∧
      zeroByFDT .a (number false true true false) 0 0 0 = true := by
  refine ⟨responseV .a 1 0, ?_, by simp [responseV, response], ?_⟩
  · intro T _
    have e : responseV .a 1 0 = responseV .a T 0 := by
      funext a b c d
      cases a <;> cases b <;> cases c <;> cases d <;> simp [responseV, response]
    rw [e]
    exact (responseV_thermal .a T 0 0 0).2.2
  · rw [zeroByFDT_iff]
    refine ⟨?_, by decide⟩
    simp [backward, leg]

/-! ### C115: what the comparison with the relations detects -/

/-- The fluctuation-dissipation relation of the first class, without division. -/
def Obeys (ch : Ch) (T w : ℝ) (K : Nat → ℂ) : Prop :=
  ((Real.tanh (w / (2 * T)) : ℝ) : ℂ) * K (match ch with | .p => 5 | _ => 3) = (starRingEnd ℂ) (K 1) - K 1

/-- **C115** (partial): for spin components below the number of internal indices and frequencies above 25 temperatures the
comparison leaves the first class unchanged exactly if it obeys the relation; missing: the other spin components and
frequencies. -/
theorem c115_detects_partial (ch : Ch) (nw nIn : Nat) (freq : Nat → ℝ) (T : ℝ) (hT : 0 < T)
    (K : Nat → Nat → Nat → Nat → ℂ) :
    computeK1 ch nw nIn freq T K = K ↔ ∀ spin iw iin, iw < nw → spin < nIn → iin < nIn → |freq iw| > T * 25 →
      Obeys ch T (freq iw) (fun k => K spin iw k iin) := by
  have slot : ∀ ch : Ch, (match ch with | .p => 5 | _ => 3) = slotK1 ch := by intro ch; cases ch <;> rfl
  have f0 : ∀ w : ℝ, w ≠ 0 → fac w T ≠ 0 := by
    intro w w0 e
    have q := fac_boson hT w0
    rw [e, div_zero, Complex.ofReal_zero, zero_mul] at q
    have e2 : (0 : ℝ) = Real.exp (w / T) + 1 := by exact_mod_cast q
    have p := Real.exp_pos (w / T)
    linarith
  have key : ∀ (w : ℝ) (k : Nat → ℂ), |w| > T * 25 → (valueK1 T w k = k (slotK1 ch) ↔ Obeys ch T w k) := by
    intro w k hw
    have w0 : w ≠ 0 := by rintro rfl; simp at hw; linarith
    have := f0 w w0
    have f' : ((fac w T : ℝ) : ℂ) ≠ 0 := by exact_mod_cast this
    unfold Obeys valueK1
    rw [slot, show Real.tanh (w / (2 * T)) = fac w T by unfold fac Propagator.fermiFac; rw [sub_zero]]
    rw [Complex.ofReal_div, Complex.ofReal_one]
    simp only [cc]
    constructor
    · intro e; rw [← e]; field_simp
    · intro e; rw [← e]; field_simp
  constructor
  · intro h spin iw iin h1 h2 h3 hw
    have := congrFun (congrFun (congrFun (congrFun h spin) iw) (slotK1 ch)) iin
    unfold computeK1 cellK1 at this
    rw [if_pos ⟨h1, h2, h3⟩, if_pos ⟨hw, rfl⟩] at this
    exact (key _ _ hw).1 this
  · intro h
    funext spin iw iK iin
    unfold computeK1
    split_ifs with c
    · unfold cellK1
      split_ifs with c2
      · obtain ⟨hw, rfl⟩ := c2
        exact (key _ _ hw).2 (h spin iw iin c.1 c.2.1 c.2.2 hw)
      · rfl
    · rfl

/-- **C115** refuted: with two spin components and one internal index, a vertex whose second spin component violates the
relation at a frequency of 30 temperatures passes the comparison. -/
theorem c115_spin_refuted :
    ∃ K : Nat → Nat → Nat → Nat → ℂ, computeK1 .a 1 1 (fun _ => 30) 1 K = K ∧
      ¬ Obeys .a 1 30 (fun k => K 1 0 k 0) := by
  refine ⟨fun spin _ iK _ => if spin = 1 ∧ iK = 1 then Complex.I else 0, ?_, ?_⟩
  · rw [c115_detects_partial _ _ _ _ _ one_pos]
    intro spin iw iin _ h2 _ _
    have : spin = 0 := by omega
    subst this
    simp [Obeys]
  · simp [Obeys]
    intro e
    have := congrArg Complex.im e
    simp at this
    norm_num at this

/-- **C115** refuted: the same below 25 temperatures, also for the first spin component. -/
theorem c115_region_refuted :
    ∃ K : Nat → Nat → Nat → Nat → ℂ, computeK1 .a 1 1 (fun _ => 20) 1 K = K ∧
      ¬ Obeys .a 1 20 (fun k => K 0 0 k 0) := by
  refine ⟨fun _ _ iK _ => if iK = 1 then Complex.I else 0, ?_, ?_⟩
  · rw [c115_detects_partial _ _ _ _ _ one_pos]
    intro spin iw iin _ _ _ hw
    exfalso
    norm_num at hw
  · simp [Obeys]
    intro e
    have := congrArg Complex.im e
    simp at this
    norm_num at this

/-! ### C116: self-energy -/

/-- **C116**: the returned self-energy equals the given one exactly if the Keldysh component obeys the
fluctuation-dissipation theorem; the retarded component is never changed and a second application changes nothing. -/
theorem c116_selfenergy (nv nIn : Nat) (freq : Nat → ℝ) (T : ℝ) (S : Nat → Nat → Nat → ℂ) :
    (selfFDT nv nIn freq T S = S ↔ ∀ iv iin, iv < nv → iin < nIn →
      S 1 iv iin = ((Real.tanh (freq iv / (2 * T)) : ℝ) : ℂ) * (S 0 iv iin - (starRingEnd ℂ) (S 0 iv iin))) ∧
    (∀ iv iin, selfFDT nv nIn freq T S 0 iv iin = S 0 iv iin) ∧
    selfFDT nv nIn freq T (selfFDT nv nIn freq T S) = selfFDT nv nIn freq T S := by
  have e : ∀ iv (z : ℂ), Complex.I * 2 * ((Propagator.effFac true (freq iv) T 0 0 : ℝ) : ℂ) * ((z.im : ℝ) : ℂ) =
      ((Real.tanh (freq iv / (2 * T)) : ℝ) : ℂ) * (z - (starRingEnd ℂ) z) := by
    intro iv z
    rw [Complex.sub_conj]
    simp only [Propagator.effFac, Propagator.fermiFac, if_true, sub_zero]
    push_cast; ring
  refine ⟨?_, ?_, ?_⟩
  · constructor
    · intro h iv iin h1 h2
      have := congrFun (congrFun (congrFun h 1) iv) iin
      unfold selfFDT at this
      rw [if_pos ⟨rfl, h1, h2⟩, e] at this
      exact this.symm
    · intro h
      funext iK iv iin
      unfold selfFDT
      split_ifs with c
      · obtain ⟨rfl, h1, h2⟩ := c
        rw [e]; exact (h iv iin h1 h2).symm
      · rfl
  · intro iv iin; simp [selfFDT]
  · funext iK iv iin
    by_cases c : iK = 1 ∧ iv < nv ∧ iin < nIn
    · simp [selfFDT, c]
    · unfold selfFDT
      rw [if_neg c]

example : selfFDT 1 1 (fun _ => 0) 1 (fun iK _ _ => if iK = 0 then Complex.I else 0) =
    fun iK _ _ => if iK = 0 then Complex.I else 0 :=
  ((c116_selfenergy 1 1 (fun _ => 0) 1 _).1).2 (by intro iv iin _ _; simp)


/-! ### Causality of the self-energy -/

theorem countPositive_eq (im : List Dbl) : (countPositive im).1 = im.countP gtZero := by
  have g : ∀ (im : List Dbl) (s : Nat × ℝ), (im.foldl (fun s val => match val with
    | some r => if gtZero val then (s.1 + 1, max s.2 r) else s
    | none => s) s).1 = s.1 + im.countP gtZero := by
    intro im
    induction im with
    | nil => simp
    | cons x xs ih =>
      intro s
      rw [List.foldl_cons, ih]
      cases x with
      | none => simp [gtZero]
      | some r =>
        by_cases h : gtZero (some r) = true
        · simp [h]; omega
        · simp [h]
  have := g im (0, 0)
  rw [Nat.zero_add] at this
  rw [← this]
  rfl

/-- **C116** (partial): with one internal index and no not-a-number, causality is reported exactly if every stored
imaginary part of the retarded self-energy is at most zero. -/
theorem c116_causal_partial (im : List ℝ) :
    saysCausal im.length (im.map some) = true ↔ ∀ x ∈ im, x ≤ 0 := by
  unfold saysCausal
  rw [List.take_of_length_le (by simp), beq_iff_eq, countPositive_eq, List.countP_eq_zero]
  simp [gtZero]

example : saysCausal 2 [some (-1), some 0] = true := (c116_causal_partial [-1, 0]).2 (by simp)

/-- **C116** refuted: a self-energy consisting of not-a-number only is reported to be causal. -/
theorem c116_causal_nan_refuted (n : Nat) : saysCausal n (List.replicate n none) = true := by
  unfold saysCausal
  rw [beq_iff_eq, countPositive_eq, List.countP_eq_zero]
  intro a ha
  have := List.eq_of_mem_replicate (List.mem_of_mem_take ha)
  subst this
  simp [gtZero]

/-- **C116** refuted: with two internal indices only the first half of the stored values is inspected. -/
theorem c116_causal_internal_refuted : saysCausal 1 [some (-1), some 1] = true := by
  unfold saysCausal
  rw [beq_iff_eq, countPositive_eq, List.countP_eq_zero]
  simp [gtZero]

/-- **C116** (partial): in the Matsubara formalism the right sign is reported exactly if the imaginary part is at most
zero at positive and at least zero at negative frequencies; missing: not-a-number. -/
theorem c116_sign_partial (n : Nat) (v im : Nat → ℝ) :
    saysRightSign n v (fun i => some (im i)) = true ↔
      ∀ i < n, (0 < v i → im i ≤ 0) ∧ (v i < 0 → 0 ≤ im i) := by
  unfold saysRightSign
  rw [List.all_eq_true]
  simp only [List.mem_range, Option.map_some, gtZero, Bool.not_eq_true', decide_eq_false_iff_not, not_lt]
  refine forall_congr' fun i => forall_congr' fun _ => ?_
  unfold signum
  rcases lt_trichotomy (v i) 0 with h | h | h
  · rw [if_neg (not_lt.2 h.le), if_pos h]
    constructor
    · intro e; exact ⟨fun x => absurd x (not_lt.2 h.le), fun _ => by linarith⟩
    · intro e; have := e.2 h; linarith
  · simp [h]
  · rw [if_pos h]
    constructor
    · intro e; exact ⟨fun _ => by linarith, fun x => absurd x (not_lt.2 h.le)⟩
    · intro e; have := e.1 h; linarith

/-! ### C117: Ward identity -/

/-- The integrated deviation from the Ward identity relative to the integral of its left-hand side, as the comments of
the code state it: the integrand is `Phi + 2 Im Σ` with linearly interpolated `Phi`. -/
noncomputable def wardDeviation (g : WardGrid) (phi : Int → ℝ) (se : ℝ → ℂ) (vp : ℝ) : ℝ :=
  if |vp| < g.upper then
    let i := if g.freq (g.index vp) < g.freq (g.index vp + 1) then g.index vp else g.index vp - 1
    let xd := (vp - g.freq i) / (g.freq (i + 1) - g.freq i)
    (1 - xd) * phi i + xd * phi (i + 1) + 2 * (se vp).im
  else 0

/-- The integrand does not depend on `Phi`: the interpolated value is real and the imaginary part of the sum is taken. -/
theorem wardIntegrand_eq (g : WardGrid) (phi : Int → ℝ) (se : ℝ → ℂ) (vp : ℝ) :
    wardIntegrand g phi se vp = if |vp| < g.upper then 2 * (se vp).im else 0 := by
  unfold wardIntegrand
  split_ifs
  · dsimp only
    rw [Complex.add_im, Complex.ofReal_im, zero_add]
    simp
  · rfl

/-- **C117** (partial): if `Phi` vanishes, the integrand is the deviation from the identity. -/
theorem c117_zero_partial (g : WardGrid) (se : ℝ → ℂ) : wardIntegrand g (fun _ => 0) se = wardDeviation g (fun _ => 0) se := by
  funext vp
  rw [wardIntegrand_eq]
  unfold wardDeviation
  simp

/-- **C117** refuted: whatever `Phi` is and whichever routine integrates, the reported deviation is 1 or not-a-number. -/
theorem c117_always_one_refuted (integral : (ℝ → ℝ) → ℝ → ℝ → ℝ) (g : WardGrid) (phi : Int → ℝ) (se : ℝ → ℂ)
    (vmin vmax : ℝ) :
    phiIntegrated integral g phi se vmin vmax = none ∨ phiIntegrated integral g phi se vmin vmax = some 1 := by
  have e : wardIntegrand g phi se = wardIntegrand g (fun _ => 0) se := by
    funext vp; rw [wardIntegrand_eq, wardIntegrand_eq]
  unfold phiIntegrated
  simp only [e]
  split_ifs with h
  · exact Or.inl rfl
  · exact Or.inr (by rw [div_self h])

/-- **C117** refuted: an exact solution of the identity, whose deviation vanishes everywhere, is reported with a relative
deviation of 1. -/
theorem c117_exact_refuted :
    ∃ (g : WardGrid) (phi : Int → ℝ) (se : ℝ → ℂ), (∀ vp, wardDeviation g phi se vp = 0) ∧
      phiIntegrated (fun f _ _ => f 0) g phi se (-1) 1 = some 1 := by
  refine ⟨⟨1, fun _ => 0, fun i => i⟩, fun _ => 2, fun _ => -Complex.I, ?_, ?_⟩
  · intro vp
    unfold wardDeviation
    by_cases h : |vp| < 1
    · rw [if_pos h]; simp; ring
    · rw [if_neg h]
  · unfold phiIntegrated
    simp [wardIntegrand_eq]

/-! ### C118: layers visited by the post-processing -/

/-- **C118** (partial): susceptibilities, slices and symmetrised vertices are computed for exactly the layers up to the
last one of the flow, in order; missing: the other loops. -/
theorem c118_all_partial (last : Nat) : layersUpTo last = List.range (last + 1) := by
  unfold layersUpTo
  congr 1

/-- **C118** refuted: the comparison with the fluctuation-dissipation relations, the Ward identity and the sum rule never
look at the last layer, which holds the result. -/
theorem c118_last_refuted (last : Nat) (h : last < 4294967296) :
    last ∉ layersUnsigned last ∧ last ∉ layersBelow last ∧ (∀ i < last, i ∈ layersUnsigned last ∧ i ∈ layersBelow last) := by
  have e : ((last : Int) % 4294967296).toNat = last := by
    rw [Int.emod_eq_of_lt (by omega) (by omega)]; simp
  unfold layersUnsigned layersBelow
  rw [e]
  simp

/-- **C118** refuted: without any completed layer (index −1) the loops with an unsigned counter run over 4294967295
layers. -/
theorem c118_empty_refuted : (layersUnsigned (-1)).length = 4294967295 := by
  unfold layersUnsigned
  rw [List.length_range]
  decide

/-- **C118** refuted: for flows of 50 and of 100 layers the check of the Kramers-Kronig relations asks for layers that do
not exist. -/
theorem c118_missing_refuted (m : Int) :
    (∃ i ∈ layersKK 50 m, 50 ≤ i) ∧ (∃ i ∈ layersKK 100 m, 100 ≤ i) := by
  constructor
  · exact ⟨65, by simp [layersKK], by decide⟩
  · exact ⟨115, by simp [layersKK], by decide⟩

/-- **C118** (partial): with one internal index no two entries of the written frequencies and self-energies share a
position, and all lie inside the vector. -/
theorem c118_position_partial (nFER nL l iv l' iv' : Nat) (h1 : iv < nFER) (h2 : iv' < nFER) (hl : l < nL) :
    (posV nFER 1 l iv 0 = posV nFER 1 l' iv' 0 ↔ l = l' ∧ iv = iv') ∧ posV nFER 1 l iv 0 < nL * nFER * 1 := by
  simp only [posV, Nat.mul_one, Nat.add_zero]
  refine ⟨⟨?_, ?_⟩, ?_⟩
  · intro e
    have p : 0 < nFER := by omega
    have d1 : (l * nFER + iv) / nFER = l := by
      rw [Nat.mul_comm, Nat.mul_add_div p, Nat.div_eq_of_lt h1, Nat.add_zero]
    have d2 : (l' * nFER + iv') / nFER = l' := by
      rw [Nat.mul_comm, Nat.mul_add_div p, Nat.div_eq_of_lt h2, Nat.add_zero]
    have hl : l = l' := by rw [← d1, ← d2, e]
    subst hl
    exact ⟨rfl, by omega⟩
  · rintro ⟨rfl, rfl⟩; rfl
  · calc l * nFER + iv < l * nFER + nFER := by omega
      _ = (l + 1) * nFER := by ring
      _ ≤ nL * nFER := Nat.mul_le_mul_right _ hl

/-- **C118** refuted: with more internal indices layers overwrite each other. -/
theorem c118_position_refuted (nFER nIn l : Nat) (h2 : 2 ≤ nIn) (hd : nIn ∣ nFER) (h0 : 0 < nFER) :
    ∃ iv iv', iv < nFER ∧ iv' < nFER ∧ posV nFER nIn l iv 0 = posV nFER nIn (l + 1) iv' 0 := by
  obtain ⟨k, rfl⟩ := hd
  refine ⟨k, 0, ?_, h0, ?_⟩
  · have : 0 < k := Nat.pos_of_mul_pos_left h0
    nlinarith
  · simp only [posV]; ring

/-- `Phi` itself is stored without collisions for any number of internal indices. -/
theorem c118_phi_partial (nFER nIn l iv iin l' iv' iin' : Nat) (h1 : iv < nFER) (h2 : iv' < nFER) (h3 : iin < nIn)
    (h4 : iin' < nIn) :
    posPhi nFER nIn l iv iin = posPhi nFER nIn l' iv' iin' ↔ l = l' ∧ iv = iv' ∧ iin = iin' := by
  refine ⟨?_, by rintro ⟨rfl, rfl, rfl⟩; rfl⟩
  intro e
  have a : ∀ l iv iin, posPhi nFER nIn l iv iin = iin + nIn * (iv + nFER * l) := by
    intro l iv iin; unfold posPhi; ring
  rw [a, a] at e
  have pI : 0 < nIn := by omega
  have pF : 0 < nFER := by omega
  have m := congrArg (· % nIn) e
  simp only [Nat.add_mul_mod_self_left, Nat.mod_eq_of_lt h3, Nat.mod_eq_of_lt h4] at m
  subst m
  have e' : iv + nFER * l = iv' + nFER * l' := Nat.eq_of_mul_eq_mul_left pI (by omega)
  have m := congrArg (· % nFER) e'
  simp only [Nat.add_mul_mod_self_left, Nat.mod_eq_of_lt h1, Nat.mod_eq_of_lt h2] at m
  subst m
  exact ⟨Nat.eq_of_mul_eq_mul_left pF (by omega), rfl, rfl⟩

example : posPhi 3 2 1 2 1 = 11 := rfl

end Verif.Fdt
