import Verif.Multiloop.PropsError
import Mathlib.Analysis.Normed.Operator.Mul
import Mathlib.Analysis.Calculus.Deriv.Inv
import Mathlib.Analysis.Calculus.Deriv.Pow
import Mathlib.Tactic.NormNum

/-! # C139: a concrete vertex, and the loop tolerance -/
namespace Verif.Multiloop

open Keldysh (Ch)
open Filter

noncomputable section

instance : Nonempty Ch := ⟨.a⟩

/-- Four-point functions that are numbers; the full vertex is 1. -/
def exKnown : Known ℝ ℝ ℝ where
  bare := 1 / 2
  red := fun _ => 1 / 6
  pi := fun _ => (1 / 5 : ℝ) • ContinuousLinearMap.mul ℝ ℝ
  dpi := fun p _ => p • ContinuousLinearMap.mul ℝ ℝ
  loop := ContinuousLinearMap.mul ℝ ℝ
  ext := (1 / 5 : ℝ) • ContinuousLinearMap.id ℝ ℝ
  G := 2
  single := 1 / 10
  k2 := (1 / 3 : ℝ) • ContinuousLinearMap.id ℝ ℝ
  k2b := (1 / 4 : ℝ) • ContinuousLinearMap.id ℝ ℝ

theorem exFull : exKnown.full = 1 := by
  norm_num [Known.full, total, exKnown]

theorem exPi (r : Ch) (a b : ℝ) : exKnown.pi r a b = a * b / 5 := by
  simp [exKnown]; ring

theorem exDpi (p : ℝ) (r : Ch) (a b : ℝ) : exKnown.dpi p r a b = p * a * b := by
  simp [exKnown]; ring

theorem exParquet : Parquet exKnown.pi exKnown.bare exKnown.red := by
  intro r
  rw [exPi, exPi]
  cases r <;> norm_num [others, total, exKnown]

theorem exChain (p : ℝ) : Chain exKnown.pi (exKnown.dpi p) := by
  constructor <;> intro r a b c <;> simp only [exPi, exDpi] <;> ring

theorem exCoupling : Coupling exKnown (1 / 5) := by
  intro r
  rw [exFull, norm_one, mul_one]
  refine ContinuousLinearMap.opNorm_le_bound₂ _ (by norm_num) fun a b => ?_
  rw [exPi, norm_div, norm_mul]
  norm_num
  exact le_of_eq (by ring)

theorem exKatanin : exKnown.katanin (1 / 10) = 3 / 25 := by
  norm_num [Known.katanin, exKnown]

theorem smul_deriv {V : Type} [NormedAddCommGroup V] [NormedSpace ℝ V] (m : V) {f : ℝ → ℝ} {f' x : ℝ}
    (h : HasDerivAt f f' x) : HasDerivAt (fun l => f l • m) (f' • m) x := h.smul_const m

/-- A family of parquet solutions through `exKnown`. -/
def exPis (l : ℝ) (_ : Ch) : ℝ →L[ℝ] ℝ →L[ℝ] ℝ := (l / (1 / 4 + 5 / 2 * l + 6 * l ^ 2)) • ContinuousLinearMap.mul ℝ ℝ

theorem exFamily (l : ℝ) (h : 0 < l) : Parquet (exPis l) exKnown.bare (fun _ => l) := by
  intro r
  have h0 : (1 / 4 + 5 / 2 * l + 6 * l ^ 2 : ℝ) ≠ 0 := by positivity
  have e : (1 / 4 + 5 / 2 * l + 6 * l ^ 2 : ℝ) = (1 / 2 + (l + l)) * (1 / 2 + (l + l + l)) := by ring
  have key : l = l / (1 / 4 + 5 / 2 * l + 6 * l ^ 2) * ((1 / 2 + (l + l)) * (1 / 2 + (l + l + l))) := by
    rw [← e]; field_simp
  have a : ∀ x y : ℝ, exPis l r x y = l / (1 / 4 + 5 / 2 * l + 6 * l ^ 2) * (x * y) := by
    intro x y; simp [exPis]
  rw [a, a]
  constructor
  · cases r <;> exact key
  · rw [mul_comm (exKnown.bare + total fun _ => l)]
    cases r <;> exact key

theorem exDeriv (r : Ch) : HasDerivAt (fun l => exPis l r) (exKnown.dpi (exKnown.katanin (1 / 10)) r) (1 / 6) := by
  rw [exKatanin]
  have h1 : HasDerivAt (fun l : ℝ => 1 / 4 + 5 / 2 * l + 6 * l ^ 2) (9 / 2) (1 / 6) := by
    have := ((((hasDerivAt_id (1 / 6 : ℝ)).const_mul (5 / 2)).const_add (1 / 4)).add
      (((hasDerivAt_id (1 / 6 : ℝ)).pow 2).const_mul 6))
    refine this.congr_deriv ?_
    norm_num
  have h2 : HasDerivAt (fun l : ℝ => l / (1 / 4 + 5 / 2 * l + 6 * l ^ 2)) (3 / 25) (1 / 6) := by
    refine ((hasDerivAt_id (1 / 6 : ℝ)).div h1 (by norm_num)).congr_deriv ?_
    norm_num
  exact smul_deriv (ContinuousLinearMap.mul ℝ ℝ) h2

/-- The hypotheses of `c139_flow` hold for `exKnown`; the derivative of each reducible part is 1. -/
example (E : MfRG.Eqs (Ch → ℝ) ℝ) (c : MfRG.Cfg) (hc : 1 ≤ c.nloops) : ∃ m, MfRG.StopsAt (exKnown.eqs E) c (1 / 10) m ∧
    ‖(fun _ => 1) - (MfRG.vertexPass (exKnown.eqs E) c (1 / 10)).1‖ ≤
      Real.sqrt (4 * (1 / 5) + 2 * (1 / 5) ^ 2) ^ m * ‖(fun _ => 1 : Ch → ℝ)‖ := by
  refine c139_flow E exKnown (1 / 10) c hc exPis (fun l _ => l) (fun _ => 1) (1 / 6) ?_ (exChain _) exDeriv
    (fun r => hasDerivAt_id _) ?_ rfl exCoupling (by norm_num)
  · filter_upwards [lt_mem_nhds (show (0 : ℝ) < 1 / 6 by norm_num)] with l hl using exFamily l hl
  · funext r
    simp only [exPis, exKnown]
    norm_num

theorem exDerived : DerivedBSE exKnown.pi (exKnown.dpi (exKnown.katanin (1 / 10))) exKnown.bare exKnown.red
    (fun _ => 1) := by
  have := c139_family exPis (exKnown.dpi (exKnown.katanin (1 / 10))) exKnown.bare (fun l _ => l) (fun _ => 1) (1 / 6)
    (by filter_upwards [lt_mem_nhds (show (0 : ℝ) < 1 / 6 by norm_num)] with l hl using exFamily l hl) exDeriv
    (fun r => hasDerivAt_id _)
  have e : exPis (1 / 6) = exKnown.pi := by
    funext r
    simp only [exPis, exKnown]
    norm_num
  rw [e] at this
  exact this

theorem exOne : exKnown.one (1 / 10) = fun _ => 3 / 25 := by
  funext r
  rw [Known.one, exKatanin, exDpi, exFull]
  norm_num

theorem exOthers (r : Ch) (a : ℝ) : others r (fun _ => a) = 2 * a := by
  cases r <;> simp only [others] <;> ring

theorem exSides (a : ℝ) : sides exKnown (fun _ => a) = fun _ => 4 / 5 * a := by
  funext r
  simp only [sides, Pi.add_apply, Known.left, Known.right, exPi, exFull, exOthers]
  ring

theorem exMiddle (a : ℝ) : middle exKnown (fun _ => a) = fun _ => 2 / 25 * a := by
  funext r
  rw [middle, c139_central exKnown _ (exChain 0)]
  simp only [exPi, exFull, exOthers]
  ring

/-- The limit is reached: the sum over loop orders converges for `exKnown`. -/
example (E : MfRG.Eqs (Ch → ℝ) ℝ) : Tendsto (fun n => MfRG.sumTo (exKnown.eqs E) (1 / 10) n) atTop
    (nhds fun _ => (1 : ℝ)) := by
  rw [tendsto_iff_norm_sub_tendsto_zero]
  have q : (0 : ℝ) ≤ Real.sqrt (4 * (1 / 5) + 2 * (1 / 5) ^ 2) := Real.sqrt_nonneg _
  have q1 : Real.sqrt (4 * (1 / 5) + 2 * (1 / 5) ^ 2) < 1 := by
    rw [Real.sqrt_lt' (by norm_num)]; norm_num
  have hz := (tendsto_pow_atTop_nhds_zero_of_lt_one q q1).mul_const ‖(fun _ => 1 : Ch → ℝ)‖
  rw [zero_mul] at hz
  refine squeeze_zero (fun n => norm_nonneg _) (fun n => ?_) hz
  rw [norm_sub_rev]
  exact c139_error E exKnown (1 / 10) exParquet (exChain _) _ exDerived exCoupling (by norm_num) n

/-- Norms rounded up to four digits; the rest of the equations does not matter. -/
def exEqs : MfRG.Eqs (Ch → ℝ) ℝ where
  oneSE := 0
  one := fun _ => 0
  left := id
  right := id
  central := fun x _ => x
  reorder := id
  corr := fun _ => 0
  accel := fun _ _ => 0
  absV := fun v => some (⌈‖v‖ * 10000⌉ / 10000)
  relV := fun _ _ => some 1
  absS := fun _ => some 0
  relS := fun _ _ => some 0

def exCfg : MfRG.Cfg := ⟨10, true, 10, 865 / 10000, 1 / 1000, 1 / 1000, 1 / 1000⟩

/-- C139, the loop tolerance: the loop over loop orders ends when one contribution is smaller than the tolerance, and the
vertex derivative returned then need not be correct to within the tolerance, not even eight times the tolerance, although
all conditions for convergence hold: in this case the sum would continue with contributions of nearly the same size. -/
theorem c139_tolerance_refuted : ∃ (k : Known ℝ ℝ ℝ) (E : MfRG.Eqs (Ch → ℝ) ℝ) (c : MfRG.Cfg) (σ : ℝ) (D : Ch → ℝ),
    Parquet k.pi k.bare k.red ∧ Chain k.pi (k.dpi (k.katanin σ)) ∧
    DerivedBSE k.pi (k.dpi (k.katanin σ)) k.bare k.red D ∧ (∃ x, Coupling k x ∧ 4 * x + 2 * x ^ 2 < 1) ∧
    (∀ v, ∃ y, E.absV v = some y ∧ ‖v‖ ≤ y ∧ y < ‖v‖ + 1 / 10000) ∧ MfRG.StopsAt (k.eqs E) c σ 3 ∧ (3 : ℤ) < c.nloops ∧
    8 * (c.tolAbs : ℝ) < ‖D - (MfRG.vertexPass (k.eqs E) c σ).1‖ := by
  have c1 : MfRG.contribution (exKnown.eqs exEqs) (1 / 10) 1 = fun _ => 3 / 25 := exOne
  have c2 : MfRG.contribution (exKnown.eqs exEqs) (1 / 10) 2 = fun _ => 4 / 5 * (3 / 25) := by
    have : MfRG.contribution (exKnown.eqs exEqs) (1 / 10) 2 = sides exKnown (exKnown.one (1 / 10)) := rfl
    rw [this, exOne, exSides]
  have c3 : MfRG.contribution (exKnown.eqs exEqs) (1 / 10) 3 = fun _ => 864 / 10000 := by
    have := contribution_rec exEqs exKnown (1 / 10) 0
    rw [c1, c2, exSides, exMiddle] at this
    rw [this]
    funext r
    norm_num
  have s3 : MfRG.sumTo (exKnown.eqs exEqs) (1 / 10) 3 = fun _ => 3024 / 10000 := by
    rw [MfRG.sumTo_succ, MfRG.sumTo_succ, sumTo_one, c2, c3, exOne]
    funext r
    simp only [Pi.add_apply]
    norm_num
  have n3 : ‖(fun _ => 864 / 10000 : Ch → ℝ)‖ = 864 / 10000 := by
    rw [pi_norm_const]; norm_num
  have small : MfRG.Small (exKnown.eqs exEqs) exCfg (1 / 10) 3 := by
    refine Or.inl ⟨864 / 10000, ?_, by norm_num [exCfg]⟩
    rw [c3]
    show some _ = some _
    rw [n3, show (864 / 10000 * 10000 : ℝ) = ((864 : ℤ) : ℝ) by norm_num, Int.ceil_intCast]
    norm_num
  have stop : MfRG.StopsAt (exKnown.eqs exEqs) exCfg (1 / 10) 3 :=
    ⟨by norm_num, by norm_num [exCfg], fun i h1 h2 => by omega, Or.inr ⟨le_refl _, small⟩⟩
  obtain ⟨m, hm, he⟩ := MfRG.c67_pass (exKnown.eqs exEqs) exCfg (1 / 10) (by norm_num [exCfg])
  have hm3 : m = 3 := MfRG.stopsAt_unique hm stop
  refine ⟨exKnown, exEqs, exCfg, 1 / 10, fun _ => 1, exParquet, exChain _, exDerived,
    ⟨1 / 5, exCoupling, by norm_num⟩, ?_, stop, by norm_num [exCfg], ?_⟩
  · intro v
    refine ⟨_, rfl, ?_, ?_⟩
    · push_cast
      have := Int.le_ceil (‖v‖ * 10000)
      rw [le_div_iff₀ (by norm_num)]
      exact this
    · push_cast
      have := Int.ceil_lt_add_one (‖v‖ * 10000)
      rw [div_lt_iff₀ (by norm_num)]
      linarith
  · rw [he, hm3, s3]
    have : (fun _ => (1 : ℝ)) - (fun _ : Ch => (3024 / 10000 : ℝ)) = fun _ => 6976 / 10000 := by
      funext r
      simp only [Pi.sub_apply]
      norm_num
    rw [this, pi_norm_const]
    norm_num [exCfg]

/-- Only channel `a` has bubbles. -/
def exLadder : Known ℝ ℝ ℝ :=
  { exKnown with
    bare := 1
    red := fun r => match r with | .a => 1 / 4 | _ => 0
    pi := fun r => match r with | .a => (1 / 5 : ℝ) • ContinuousLinearMap.mul ℝ ℝ | _ => 0
    dpi := fun p r => match r with | .a => p • ContinuousLinearMap.mul ℝ ℝ | _ => 0 }

example (E : MfRG.Eqs (Ch → ℝ) ℝ) : (∀ i, 2 ≤ i → MfRG.contribution (exLadder.eqs E) 1 i = 0) ∧
    exLadder.one 1 .a ≠ 0 := by
  refine ⟨(c139_single_channel E exLadder 1 ?_ ?_ .a ?_ ?_).1, ?_⟩
  · intro r
    cases r <;> norm_num [exLadder, others, total]
  · constructor <;> intro r a b c <;> cases r <;> simp [exLadder] <;> ring
  · intro r hr
    cases r <;> simp_all [exLadder]
  · intro r hr
    cases r <;> simp_all [exLadder]
  · norm_num [exLadder, exKnown, Known.one, Known.katanin, Known.full, total]

end

end Verif.Multiloop
