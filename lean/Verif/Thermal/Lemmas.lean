import Verif.Thermal.Spec
import Verif.Sde.PropsLimit

/-! Diagrams on the two branches of the contour. -/
namespace Verif.Thermal
open Verif.Fdt Verif.Heredity Verif.Symmetries Verif.Invariant Verif.Sde.Limit MeasureTheory
open Verif.Freqs (Ch)

theorem tn_orth (k k' : Bool) : ∑ b : Bool, tn k b * tn k' b = if k = k' then 2 else 0 := by
  cases k <;> cases k' <;> simp [tn, Fdt.turn]; norm_num

theorem kern_orth (k k' : K4) : ∑ b : K4, kern k b * kern k' b = if k = k' then 16 else 0 := by
  have : ∑ b : K4, kern k b * kern k' b = (∑ b : Bool, tn k.1 b * tn k'.1 b) * ((∑ b : Bool, tn k.2.1 b * tn k'.2.1 b) *
      ((∑ b : Bool, tn k.2.2.1 b * tn k'.2.2.1 b) * ∑ b : Bool, tn k.2.2.2 b * tn k'.2.2.2 b)) := by
    simp only [Fintype.sum_prod_type, Fintype.sum_bool, kern]
    ring
  rw [this, tn_orth, tn_orth, tn_orth, tn_orth]
  obtain ⟨a, b, c, d⟩ := k
  obtain ⟨a', b', c', d'⟩ := k'
  simp only [Prod.mk.injEq]
  by_cases h1 : a = a' <;> by_cases h2 : b = b' <;> by_cases h3 : c = c' <;> by_cases h4 : d = d' <;> simp [h1, h2, h3, h4]; norm_num

theorem rot_inv (F : K4 → ℂ) (k : K4) : F k = 1 / 4 * ∑ b : K4, kern k b * rot F b := by
  simp only [rot, Finset.mul_sum]
  rw [Finset.sum_comm]
  have : ∀ k' : K4, ∑ b : K4, 1 / 4 * (kern k b * (1 / 4 * (kern k' b * F k'))) = if k = k' then F k' else 0 := by
    intro k'
    have : ∀ b : K4, 1 / 4 * (kern k b * (1 / 4 * (kern k' b * F k'))) = (kern k b * kern k' b) * (1 / 16 * F k') := fun b => by ring
    rw [Finset.sum_congr rfl fun b _ => this b, ← Finset.sum_mul, kern_orth]
    split <;> ring
  rw [Finset.sum_congr rfl fun k' _ => this k', Finset.sum_ite_eq]
  simp

/-- Places of the indices in channel `a`: from the external legs and the ends of the lines to the legs of the left and the
right vertex. -/
def wireA : (K4 × K4) ≃ (K4 × K4) where
  toFun x := ((x.1.1, x.2.2.2.2, x.2.1, x.1.2.2.2), (x.2.2.2.1, x.1.2.1, x.1.2.2.1, x.2.2.1))
  invFun z := ((z.1.1, z.2.2.1, z.2.2.2.1, z.1.2.2.2), (z.1.2.2.1, z.2.2.2.2, z.2.1, z.1.2.1))
  left_inv _ := rfl
  right_inv _ := rfl

/-- Channel `p`. -/
def wireP : (K4 × K4) ≃ (K4 × K4) where
  toFun x := ((x.1.1, x.1.2.1, x.2.1, x.2.2.1), (x.2.2.2.1, x.2.2.2.2, x.1.2.2.1, x.1.2.2.2))
  invFun z := ((z.1.1, z.1.2.1, z.2.2.2.1, z.2.2.2.2), (z.1.2.2.1, z.1.2.2.2, z.2.1, z.2.2.1))
  left_inv _ := rfl
  right_inv _ := rfl

/-- Channel `t`. -/
def wireT : (K4 × K4) ≃ (K4 × K4) where
  toFun x := ((x.2.2.2.2, x.1.2.1, x.2.1, x.1.2.2.2), (x.1.1, x.2.2.2.1, x.1.2.2.1, x.2.2.1))
  invFun z := ((z.2.1, z.1.2.1, z.2.2.2.1, z.1.2.2.2), (z.1.2.2.1, z.2.2.2.2, z.2.2.1, z.1.1))
  left_inv _ := rfl
  right_inv _ := rfl

/-- Two vertices with lines between them. -/
noncomputable def join (e : (K4 × K4) ≃ (K4 × K4)) (L R P : K4 → ℂ) (k : K4) : ℂ :=
  ∑ y : K4, L (e (k, y)).1 * P y * R (e (k, y)).2

/-- Every place is used once. -/
def Plain (e : (K4 × K4) ≃ (K4 × K4)) : Prop :=
  ∀ x z : K4 × K4, kern x.1 z.1 * kern x.2 z.2 = kern (e x).1 (e z).1 * kern (e x).2 (e z).2

theorem plainA : Plain wireA := fun _ _ => by simp only [wireA, kern, Equiv.coe_fn_mk]; ring
theorem plainP : Plain wireP := fun _ _ => by simp only [wireP, kern, Equiv.coe_fn_mk]; ring
theorem plainT : Plain wireT := fun _ _ => by simp only [wireT, kern, Equiv.coe_fn_mk]; ring

/-- The rotation of the diagram is the diagram of the rotated parts. -/
theorem rot_join {e : (K4 × K4) ≃ (K4 × K4)} (he : Plain e) (L R P : K4 → ℂ) (b : K4) :
    rot (join e L R P) b = join e (rot L) (rot R) (rot P) b := by
  have h1 : rot (join e L R P) b =
      ∑ σ : K4, 1 / 16 * (∑ x : K4 × K4, kern x.1 b * kern x.2 σ * (L (e x).1 * R (e x).2)) * rot P σ := by
    rw [show rot (join e L R P) b = 1 / 4 * ∑ k : K4, kern k b * join e L R P k from rfl]
    simp only [join]
    have : ∀ k : K4, kern k b * ∑ y : K4, L (e (k, y)).1 * P y * R (e (k, y)).2 =
        ∑ σ : K4, ∑ y : K4, kern k b * (L (e (k, y)).1 * R (e (k, y)).2) * (1 / 4 * (kern y σ * rot P σ)) := by
      intro k
      rw [Finset.mul_sum, Finset.sum_comm]
      refine Finset.sum_congr rfl fun y _ => ?_
      rw [rot_inv P y, ← Finset.mul_sum, ← Finset.mul_sum]; ring
    simp only [this]
    rw [Finset.sum_comm, Finset.mul_sum]
    refine Finset.sum_congr rfl fun σ _ => ?_
    rw [Fintype.sum_prod_type (f := fun x : K4 × K4 => kern x.1 b * kern x.2 σ * (L (e x).1 * R (e x).2))]
    simp only [Finset.mul_sum, Finset.sum_mul]
    refine Finset.sum_congr rfl fun k _ => Finset.sum_congr rfl fun y _ => ?_
    ring
  rw [h1]
  refine Finset.sum_congr rfl fun σ _ => ?_
  have h2 : ∑ x : K4 × K4, kern x.1 b * kern x.2 σ * (L (e x).1 * R (e x).2) =
      (∑ k : K4, kern k (e (b, σ)).1 * L k) * ∑ k : K4, kern k (e (b, σ)).2 * R k := by
    rw [Fintype.sum_mul_sum, ← Fintype.sum_prod_type' (f := fun i j => kern i (e (b, σ)).1 * L i * (kern j (e (b, σ)).2 * R j)),
      ← e.sum_comp fun x : K4 × K4 => kern x.1 (e (b, σ)).1 * L x.1 * (kern x.2 (e (b, σ)).2 * R x.2)]
    refine Finset.sum_congr rfl fun x _ => ?_
    linear_combination (L (e x).1 * R (e x).2) * he x (b, σ)
  rw [h2]
  simp only [rot]
  ring

theorem weight_inv (T x : ℝ) (b : Bool) : weight T x b * weight T (-x) b = 1 := by
  cases b
  · simp [weight]
  · simp only [weight, if_true, neg_mul_neg, ← Complex.ofReal_mul, ← Real.exp_add, neg_div, add_neg_cancel, Real.exp_zero, Complex.ofReal_one]

def flipEquiv : K4 ≃ K4 := ⟨flip, flip, fun b => by simp [flip], fun b => by simp [flip]⟩

/-- Diagrams in equilibrium. -/
theorem kms_join {e : (K4 × K4) ≃ (K4 × K4)} (he : Plain e) {L R P : K4 → ℂ} {T : ℝ} {x xl xr xp : Fin 4 → ℝ}
    (hL : Kms (-1) T xl L) (hR : Kms (-1) T xr R) (hP : Kms 1 T xp P)
    (hf : ∀ b σ, e (flip b, flip σ) = (flip (e (b, σ)).1, flip (e (b, σ)).2))
    (hw : ∀ b σ, wt T xl (e (b, σ)).1 * wt T xr (e (b, σ)).2 * wt T xp σ = wt T x b) : Kms 1 T x (join e L R P) := by
  intro b
  rw [rot_join he, rot_join he]
  simp only [join, star_sum, Finset.mul_sum]
  rw [← flipEquiv.sum_comp (fun y => 1 * wt T x b * (rot L (e (flip b, y)).1 * rot P y * rot R (e (flip b, y)).2))]
  refine Finset.sum_congr rfl fun σ _ => ?_
  show _ = 1 * wt T x b * (rot L (e (flip b, flip σ)).1 * rot P (flip σ) * rot R (e (flip b, flip σ)).2)
  rw [star_mul', star_mul', hL, hR, hP, hf, ← hw b σ]
  ring




/-! ### Lines -/

theorem rot_pair (g s : Bool → Bool → ℂ) (b : K4) :
    rot (fun k => g k.1 k.2.2.1 * s k.2.1 k.2.2.2) b = rot2 g b.1 b.2.2.1 * rot2 s b.2.1 b.2.2.2 := by
  simp only [rot, rot2, kern, Fintype.sum_prod_type, Fintype.sum_bool]
  ring

theorem tanh_exp (x T : ℝ) : Real.exp (x / T) * (1 - Real.tanh (x / (2 * T))) = 1 + Real.tanh (x / (2 * T)) := by
  have e : x / T = x / (2 * T) + x / (2 * T) := by
    rcases eq_or_ne T 0 with rfl | h
    · simp
    · field_simp; norm_num
  set y := x / (2 * T)
  rw [e, Real.exp_add, Real.tanh_eq_sinh_div_cosh]
  have hc : Real.cosh y ≠ 0 := (Real.cosh_pos y).ne'
  have h1 : Real.cosh y - Real.sinh y = Real.exp (-y) := Real.cosh_sub_sinh y
  have h2 : Real.cosh y + Real.sinh y = Real.exp y := Real.cosh_add_sinh y
  have h3 : Real.exp y * Real.exp (-y) = 1 := by rw [← Real.exp_add, add_neg_cancel, Real.exp_zero]
  field_simp
  rw [h1, h2]
  linear_combination Real.exp y * h3

theorem kms_line {T mu : ℝ} {G : ℝ → Keldysh.Prop2 ℂ} (hG : ThermalG T mu G) (v : ℝ) (b b' : Bool) :
    star (rot2 (comp (G v)) b b') = -(weight T (v - mu) b * weight T (mu - v) b') * rot2 (comp (G v)) (!b) (!b') := by
  have hk := hG v
  have ht := tanh_exp (v - mu) T
  set t := Real.tanh ((v - mu) / (2 * T)) with htd
  set E := Real.exp ((v - mu) / T) with hE
  have hE' : Real.exp ((mu - v) / T) * E = 1 := by
    rw [hE, ← Real.exp_add, ← add_div]; simp
  set E' := Real.exp ((mu - v) / T) with hE2
  have htC : (E : ℂ) * (1 - t) = 1 + t := by exact_mod_cast ht
  have hEC : (E' : ℂ) * E = 1 := by exact_mod_cast hE'
  have hw : weight T (v - mu) b = if b then -(E : ℂ) else 1 := rfl
  have hw' : weight T (mu - v) b' = if b' then -(E' : ℂ) else 1 := rfl
  rw [hw, hw']
  clear_value t E E'
  generalize (E : ℂ) = e at *
  generalize (E' : ℂ) = e' at *
  have htr : (starRingEnd ℂ) (t : ℂ) = t := Complex.conj_ofReal t
  generalize (t : ℂ) = t at *
  cases b <;> cases b' <;>
    simp [rot2, Fintype.sum_prod_type, tn, Fdt.turn, comp, hk, htr] <;> generalize (G v).gr = R <;> generalize (starRingEnd ℂ) R = A
  · ring
  · linear_combination (1 / 2 * (R - A)) * (e' * htC - (1 - t) * hEC)
  · linear_combination (1 / 2 * (R - A)) * htC
  · linear_combination (1 / 2 * (t * (R - A) + R + A)) * hEC

theorem kms_pair {T mu : ℝ} {G S : ℝ → Keldysh.Prop2 ℂ} (hG : ThermalG T mu G) {diff : Bool} (hS : diff = true → ThermalG T mu S) (y z : ℝ) :
    Kms 1 T ![y - mu, z - mu, mu - y, mu - z] (fun k => pairOf G S diff k.1 k.2.1 k.2.2.1 k.2.2.2 y z) := by
  have key : ∀ {A B : ℝ → Keldysh.Prop2 ℂ}, ThermalG T mu A → ThermalG T mu B → ∀ b : K4,
      star (rot (fun k => comp (A y) k.1 k.2.2.1 * comp (B z) k.2.1 k.2.2.2) b) =
      1 * wt T ![y - mu, z - mu, mu - y, mu - z] b * rot (fun k => comp (A y) k.1 k.2.2.1 * comp (B z) k.2.1 k.2.2.2) (flip b) := by
    intro A B hA hB b
    rw [rot_pair (comp (A y)) (comp (B z)), rot_pair (comp (A y)) (comp (B z)), star_mul', kms_line hA, kms_line hB]
    simp only [wt, flip, Matrix.cons_val_zero, Matrix.cons_val_one, Matrix.cons_val]
    ring
  intro b
  cases diff
  · exact key hG hG b
  · have e : (fun k : K4 => pairOf G S true k.1 k.2.1 k.2.2.1 k.2.2.2 y z) =
        fun k => comp (G y) k.1 k.2.2.1 * comp (S z) k.2.1 k.2.2.2 + comp (S y) k.1 k.2.2.1 * comp (G z) k.2.1 k.2.2.2 := rfl
    have ra : ∀ (f g : K4 → ℂ) c, rot (fun k => f k + g k) c = rot f c + rot g c := by
      intro f g c
      simp only [rot, mul_add, Finset.sum_add_distrib]
    rw [e, ra, ra, star_add, key hG (hS rfl), key (hS rfl) hG]
    ring



/-! ### Vertices -/

theorem rot_add (F H : K4 → ℂ) (b : K4) : rot (fun k => F k + H k) b = rot F b + rot H b := by
  simp only [rot, mul_add, Finset.sum_add_distrib]

theorem rot_zero (b : K4) : rot (fun _ => 0) b = 0 := by simp [rot]

theorem rot_smul (c : ℂ) (F : K4 → ℂ) (b : K4) : rot (fun k => c * F k) b = c * rot F b := by
  simp only [rot, Finset.mul_sum]
  exact Finset.sum_congr rfl fun k _ => by ring

section
variable {s : ℂ} {T mu : ℝ} {x : Fin 4 → ℝ} {F H : K4 → ℂ}

theorem Kms.zero : Kms s T x (fun _ => 0) := fun b => by rw [rot_zero, rot_zero]; simp

theorem Kms.add (hF : Kms s T x F) (hH : Kms s T x H) : Kms s T x (fun k => F k + H k) := fun b => by
  rw [rot_add, rot_add, star_add, hF, hH]; ring

theorem Kms.real (r : ℝ) (hF : Kms s T x F) : Kms s T x (fun k => (r : ℂ) * F k) := fun b => by
  rw [rot_smul, rot_smul, star_mul', hF]
  simp [Complex.conj_ofReal]; ring

theorem Kms.turn {c : ℂ} (hc : star c = -c) (hF : Kms s T x F) : Kms (-s) T x (fun k => c * F k) := fun b => by
  rw [rot_smul, rot_smul, star_mul', hF, hc]; ring

theorem Kms.ite {p : Prop} [Decidable p] (hF : Kms s T x F) : Kms s T x (fun k => if p then F k else 0) := by
  by_cases h : p
  · simpa [h] using hF
  · simpa [h] using Kms.zero

end

theorem kms_leg {T mu : ℝ} {V : VF} (hV : Equilibrium T mu V) (h : Bool) (c : Ch) (s1 s2 s3 s4 : Bool) {e1 e2 e3 e4 : ℝ}
    (he : e1 + e2 = e3 + e4) : Kms (-1) T ![e1 - mu, e2 - mu, mu - e3, mu - e4]
      (fun k => legVal ⟨V⟩ h c ⟨s1, k.1, e1⟩ ⟨s2, k.2.1, e2⟩ ⟨s3, k.2.2.1, e3⟩ ⟨s4, k.2.2.2, e4⟩) := by
  have h0 := hV h c 0 (by omega) ![e1, e2, e3, e4] he
  have h1 := hV h c 1 (by omega) ![e1, e2, e3, e4] he
  exact (Kms.ite (p := s1 = s3 ∧ s2 = s4) h0).add (Kms.ite (p := s1 = s4 ∧ s2 = s3) h1)

/-- Energy is conserved at both vertices of a bubble. -/
def Meets (c : Ch) (e1 e2 e3 e4 y z : ℝ) : Prop :=
  match c with
  | .a => e1 + z = y + e4 ∧ y + e2 = e3 + z
  | .p => e1 + e2 = y + z ∧ y + z = e3 + e4
  | .t => z + e2 = y + e4 ∧ e1 + y = e3 + z

section
variable (L R : VF) (P : Pair) (s1 s2 s3 s4 u v : Bool) (e1 e2 e3 e4 y z : ℝ)

theorem term_a : (fun k : K4 => ∑ q : K4, term ⟨L⟩ ⟨R⟩ P .a ⟨s1, k.1, e1⟩ ⟨s2, k.2.1, e2⟩ ⟨s3, k.2.2.1, e3⟩ ⟨s4, k.2.2.2, e4⟩ y z
    ⟨u, v, q.1, q.2.1, q.2.2.1, q.2.2.2⟩) = join wireA (fun k => legVal ⟨L⟩ false .a ⟨s1, k.1, e1⟩ ⟨v, k.2.1, z⟩ ⟨u, k.2.2.1, y⟩ ⟨s4, k.2.2.2, e4⟩)
      (fun k => legVal ⟨R⟩ true .a ⟨u, k.1, y⟩ ⟨s2, k.2.1, e2⟩ ⟨s3, k.2.2.1, e3⟩ ⟨v, k.2.2.2, z⟩)
      (fun k => P k.1 k.2.1 k.2.2.1 k.2.2.2 y z) := by
  funext k
  exact Finset.sum_congr rfl fun q _ => rfl

theorem term_p (hs : u = s3 ∧ v = s4) : (fun k : K4 => ∑ q : K4, term ⟨L⟩ ⟨R⟩ P .p ⟨s1, k.1, e1⟩ ⟨s2, k.2.1, e2⟩ ⟨s3, k.2.2.1, e3⟩ ⟨s4, k.2.2.2, e4⟩ y z
    ⟨u, v, q.1, q.2.1, q.2.2.1, q.2.2.2⟩) = join wireP (fun k => legVal ⟨L⟩ false .p ⟨s1, k.1, e1⟩ ⟨s2, k.2.1, e2⟩ ⟨u, k.2.2.1, y⟩ ⟨v, k.2.2.2, z⟩)
      (fun k => legVal ⟨R⟩ true .p ⟨u, k.1, y⟩ ⟨v, k.2.1, z⟩ ⟨s3, k.2.2.1, e3⟩ ⟨s4, k.2.2.2, e4⟩)
      (fun k => P k.1 k.2.1 k.2.2.1 k.2.2.2 y z) := by
  funext k
  exact Finset.sum_congr rfl fun q _ => if_pos hs

theorem term_t : (fun k : K4 => ∑ q : K4, term ⟨L⟩ ⟨R⟩ P .t ⟨s1, k.1, e1⟩ ⟨s2, k.2.1, e2⟩ ⟨s3, k.2.2.1, e3⟩ ⟨s4, k.2.2.2, e4⟩ y z
    ⟨u, v, q.1, q.2.1, q.2.2.1, q.2.2.2⟩) = join wireT (fun k => legVal ⟨L⟩ false .t ⟨v, k.1, z⟩ ⟨s2, k.2.1, e2⟩ ⟨u, k.2.2.1, y⟩ ⟨s4, k.2.2.2, e4⟩)
      (fun k => legVal ⟨R⟩ true .t ⟨s1, k.1, e1⟩ ⟨u, k.2.1, y⟩ ⟨s3, k.2.2.1, e3⟩ ⟨v, k.2.2.2, z⟩)
      (fun k => P k.1 k.2.1 k.2.2.1 k.2.2.2 y z) := by
  funext k
  exact Finset.sum_congr rfl fun q _ => rfl

theorem term_p0 (hs : ¬ (u = s3 ∧ v = s4)) : (fun k : K4 => ∑ q : K4, term ⟨L⟩ ⟨R⟩ P .p ⟨s1, k.1, e1⟩ ⟨s2, k.2.1, e2⟩ ⟨s3, k.2.2.1, e3⟩
    ⟨s4, k.2.2.2, e4⟩ y z ⟨u, v, q.1, q.2.1, q.2.2.1, q.2.2.2⟩) = fun _ => 0 := by
  funext k
  exact Finset.sum_eq_zero fun q _ => if_neg hs

end

theorem kms_one {T mu : ℝ} {L R : VF} {P : Pair} (hL : Equilibrium T mu L) (hR : Equilibrium T mu R) {y z : ℝ}
    (hP : Kms 1 T ![y - mu, z - mu, mu - y, mu - z] (fun k => P k.1 k.2.1 k.2.2.1 k.2.2.2 y z)) (c : Ch)
    (s1 s2 s3 s4 u v : Bool) {e1 e2 e3 e4 : ℝ}
    (hc : Meets c e1 e2 e3 e4 y z) :
    Kms 1 T ![e1 - mu, e2 - mu, mu - e3, mu - e4] (fun k => ∑ q : K4, term ⟨L⟩ ⟨R⟩ P c ⟨s1, k.1, e1⟩ ⟨s2, k.2.1, e2⟩
      ⟨s3, k.2.2.1, e3⟩ ⟨s4, k.2.2.2, e4⟩ y z ⟨u, v, q.1, q.2.1, q.2.2.1, q.2.2.2⟩) := by
  have hy := weight_inv T (y - mu)
  have hz := weight_inv T (z - mu)
  rw [neg_sub] at hy hz
  have all : ∀ σ : K4, (weight T (y - mu) σ.1 * weight T (mu - y) σ.1) * (weight T (z - mu) σ.2.1 * weight T (mu - z) σ.2.1) *
      (weight T (y - mu) σ.2.2.1 * weight T (mu - y) σ.2.2.1) * (weight T (z - mu) σ.2.2.2 * weight T (mu - z) σ.2.2.2) = 1 := fun σ => by
    rw [hy, hz, hy, hz]; norm_num
  cases c with
  | a =>
    obtain ⟨hl, hr⟩ := hc
    rw [term_a]
    refine kms_join plainA (kms_leg hL false .a s1 v u s4 hl) (kms_leg hR true .a u s2 s3 v hr) hP (fun _ _ => rfl) fun b σ => ?_
    simp only [wt, wireA, Equiv.coe_fn_mk, Matrix.cons_val_zero, Matrix.cons_val_one, Matrix.cons_val]
    linear_combination (weight T (e1 - mu) b.1 * weight T (e2 - mu) b.2.1 * weight T (mu - e3) b.2.2.1 * weight T (mu - e4) b.2.2.2) * all σ
  | p =>
    obtain ⟨hl, hr⟩ := hc
    by_cases hs : u = s3 ∧ v = s4
    swap
    · rw [term_p0 _ _ _ _ _ _ _ _ _ _ _ _ _ _ _ hs]
      exact Kms.zero
    rw [term_p _ _ _ _ _ _ _ _ _ _ _ _ _ _ _ hs]
    refine kms_join plainP (kms_leg hL false .p s1 s2 u v hl) (kms_leg hR true .p u v s3 s4 hr) hP (fun _ _ => rfl) fun b σ => ?_
    simp only [wt, wireP, Equiv.coe_fn_mk, Matrix.cons_val_zero, Matrix.cons_val_one, Matrix.cons_val]
    linear_combination (weight T (e1 - mu) b.1 * weight T (e2 - mu) b.2.1 * weight T (mu - e3) b.2.2.1 * weight T (mu - e4) b.2.2.2) * all σ
  | t =>
    obtain ⟨hl, hr⟩ := hc
    rw [term_t]
    refine kms_join plainT (kms_leg hL false .t v s2 u s4 hl) (kms_leg hR true .t s1 u s3 v hr) hP (fun _ _ => rfl) fun b σ => ?_
    simp only [wt, wireT, Equiv.coe_fn_mk, Matrix.cons_val_zero, Matrix.cons_val_one, Matrix.cons_val]
    linear_combination (weight T (e1 - mu) b.1 * weight T (e2 - mu) b.2.1 * weight T (mu - e3) b.2.2.1 * weight T (mu - e4) b.2.2.2) * all σ

end Verif.Thermal
