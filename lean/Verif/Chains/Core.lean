import Verif.Chains.Spec

/-! The bubble without spin: sum over the Keldysh indices of the lines and integral. -/
namespace Verif.Chains
open Verif.Heredity Verif.Invariant MeasureTheory Filter Topology
open Verif.Freqs (Ch)

/-- Energies of the first three legs from the frequencies natural in a channel: transfer frequency, frequency on the left,
frequency on the right. -/
noncomputable def chart (c : Ch) (q : ℝ × ℝ × ℝ) : ℝ × ℝ × ℝ :=
  match c with
  | .a => (q.2.1 - q.1 / 2, q.2.2 + q.1 / 2, q.2.2 - q.1 / 2)
  | .p => (q.2.1 + q.1 / 2, -q.2.1 + q.1 / 2, q.2.2 + q.1 / 2)
  | .t => (q.2.2 + q.1 / 2, q.2.1 - q.1 / 2, q.2.2 - q.1 / 2)

/-- The frequencies from the energies. -/
noncomputable def unchart (c : Ch) (e : ℝ × ℝ × ℝ) : ℝ × ℝ × ℝ :=
  match c with
  | .a => (e.2.1 - e.2.2, e.1 + (e.2.1 - e.2.2) / 2, (e.2.1 + e.2.2) / 2)
  | .p => (e.1 + e.2.1, (e.1 - e.2.1) / 2, e.2.2 - (e.1 + e.2.1) / 2)
  | .t => (e.1 - e.2.2, e.2.1 + (e.1 - e.2.2) / 2, (e.1 + e.2.2) / 2)

theorem chart_unchart (c : Ch) (e : ℝ × ℝ × ℝ) : chart c (unchart c e) = e := by
  obtain ⟨a, b, d⟩ := e
  cases c <;> simp only [chart, unchart, Prod.mk.injEq] <;> refine ⟨?_, ?_, ?_⟩ <;> ring

theorem unchart_chart (c : Ch) (e : ℝ × ℝ × ℝ) : unchart c (chart c e) = e := by
  obtain ⟨a, b, d⟩ := e
  cases c <;> simp only [chart, unchart, Prod.mk.injEq] <;> refine ⟨?_, ?_, ?_⟩ <;> ring

theorem chart_continuous (c : Ch) : Continuous (chart c) := by
  cases c <;> unfold chart <;> dsimp only <;> fun_prop

theorem unchart_continuous (c : Ch) : Continuous (unchart c) := by
  cases c <;> unfold unchart <;> dsimp only <;> fun_prop

/-- A function of the energies as a function of the frequencies of the channel. -/
noncomputable def fwd (c : Ch) (a : F3) : F3 := a.compContinuous ⟨chart c, chart_continuous c⟩
/-- And back. -/
noncomputable def back (c : Ch) (a : F3) : F3 := a.compContinuous ⟨unchart c, unchart_continuous c⟩

theorem fwd_apply (c : Ch) (a : F3) (q : ℝ × ℝ × ℝ) : fwd c a q = a (chart c q) := rfl
theorem back_apply (c : Ch) (a : F3) (q : ℝ × ℝ × ℝ) : back c a q = a (unchart c q) := rfl
theorem fwd_back (c : Ch) (a : F3) : fwd c (back c a) = a := by
  ext q; rw [fwd_apply, back_apply, unchart_chart]
theorem fwd_add (c : Ch) (a b : F3) : fwd c (a + b) = fwd c a + fwd c b := rfl
theorem back_add (c : Ch) (a b : F3) : back c (a + b) = back c a + back c b := rfl
theorem fwd_smul (c : Ch) (r : ℝ) (a : F3) : fwd c (r • a) = r • fwd c a := rfl
theorem back_smul (c : Ch) (r : ℝ) (a : F3) : back c (r • a) = r • back c a := rfl
theorem fwd_sum {ι : Type} (c : Ch) (s : Finset ι) (f : ι → F3) : fwd c (∑ i ∈ s, f i) = ∑ i ∈ s, fwd c (f i) :=
  map_sum (AddMonoidHom.mk' (fwd c) (fwd_add c)) f s
theorem back_sum {ι : Type} (c : Ch) (s : Finset ι) (f : ι → F3) : back c (∑ i ∈ s, f i) = ∑ i ∈ s, back c (f i) :=
  map_sum (AddMonoidHom.mk' (back c) (back_add c)) f s
theorem fwd_norm (c : Ch) (a : F3) : ‖fwd c a‖ ≤ ‖a‖ :=
  (BoundedContinuousFunction.norm_le (norm_nonneg _)).2 fun _ => a.norm_coe_le_norm _
theorem back_norm (c : Ch) (a : F3) : ‖back c a‖ ≤ ‖a‖ :=
  (BoundedContinuousFunction.norm_le (norm_nonneg _)).2 fun _ => a.norm_coe_le_norm _

/-- Keldysh indices at the ends of the lines. -/
abbrev Ends : Type := Bool × Bool × Bool × Bool

/-- Keldysh indices of the left vertex. -/
def li (c : Ch) (α : Fin 4 → Bool) (y : Ends) : Fin 4 → Bool :=
  match c with
  | .a => ![α 0, y.2.2.2, y.1, α 3]
  | .p => ![α 0, α 1, y.1, y.2.1]
  | .t => ![y.2.2.2, α 1, y.1, α 3]

/-- Keldysh indices of the right vertex. -/
def ri (c : Ch) (α : Fin 4 → Bool) (y : Ends) : Fin 4 → Bool :=
  match c with
  | .a => ![y.2.2.1, α 1, α 2, y.2.1]
  | .p => ![y.2.2.1, y.2.2.2, α 2, α 3]
  | .t => ![α 0, y.2.2.1, α 2, y.2.1]

theorem li_li (c : Ch) (α : Fin 4 → Bool) (y y' : Ends) : li c (li c α y) y' = li c α y' := by
  cases c <;> rfl
theorem ri_li (c : Ch) (α : Fin 4 → Bool) (y y' : Ends) : ri c (li c α y) y' = li c (ri c α y') y := by
  cases c <;> rfl
theorem ri_ri (c : Ch) (α : Fin 4 → Bool) (y y' : Ends) : ri c (ri c α y') y = ri c α y := by
  cases c <;> rfl

/-- Energies of the two lines. -/
noncomputable def lines (c : Ch) (w x : ℝ) : ℝ × ℝ :=
  match c with
  | .a => (x - w / 2, x + w / 2)
  | .p => (x + w / 2, -x + w / 2)
  | .t => (x - w / 2, x + w / 2)

/-- The pair of lines with its prefactor. -/
noncomputable def ker (P : Pair) (c : Ch) (y : Ends) (w x : ℝ) : ℂ :=
  pref c * P y.1 y.2.1 y.2.2.1 y.2.2.2 (lines c w x).1 (lines c w x).2

/-- Pairs that can be integrated in all channels. -/
def Pairs (N : ℝ) (P : Pair) : Prop := ∀ c y, Kernel N (ker P c y)

/-- Four-point functions without spin. -/
abbrev Spinless : Type := (Fin 4 → Bool) → F3

/-- The bubble without spin. -/
noncomputable def core (P : Pair) (c : Ch) (f g : Spinless) : Spinless := fun α =>
  ∑ y : Ends, back c (one (ker P c y) (fwd c (f (li c α y))) (fwd c (g (ri c α y))))

section
variable {N M : ℝ} {P Q : Pair}

theorem core_add_left (h : Pairs N P) (c : Ch) (f f' g : Spinless) : core P c (f + f') g = core P c f g + core P c f' g := by
  funext α
  simp only [core, Pi.add_apply, fwd_add, one_add_left (h c _), back_add, Finset.sum_add_distrib]

theorem core_add_right (h : Pairs N P) (c : Ch) (f g g' : Spinless) : core P c f (g + g') = core P c f g + core P c f g' := by
  funext α
  simp only [core, Pi.add_apply, fwd_add, one_add_right (h c _), back_add, Finset.sum_add_distrib]

theorem core_smul_left (h : Pairs N P) (c : Ch) (r : ℝ) (f g : Spinless) : core P c (r • f) g = r • core P c f g := by
  funext α
  simp only [core, Pi.smul_apply, fwd_smul, one_smul_left (h c _), back_smul, Finset.smul_sum]

theorem core_smul_right (h : Pairs N P) (c : Ch) (r : ℝ) (f g : Spinless) : core P c f (r • g) = r • core P c f g := by
  funext α
  simp only [core, Pi.smul_apply, fwd_smul, one_smul_right (h c _), back_smul, Finset.smul_sum]

theorem core_norm (h : Pairs N P) (c : Ch) (f g : Spinless) : ‖core P c f g‖ ≤ 16 * N * ‖f‖ * ‖g‖ := by
  have N0 : 0 ≤ N := (h .a (true, true, true, true)).nonneg
  refine (pi_norm_le_iff_of_nonneg (by positivity)).2 fun α => ?_
  refine (norm_sum_le _ _).trans ?_
  have : ∀ y ∈ (Finset.univ : Finset Ends), ‖back c (one (ker P c y) (fwd c (f (li c α y))) (fwd c (g (ri c α y))))‖ ≤ N * ‖f‖ * ‖g‖ := fun y _ => by
    refine (back_norm _ _).trans ((one_norm (h c y) _ _).trans ?_)
    have := (fwd_norm c (f (li c α y))).trans (norm_le_pi_norm f _)
    have := (fwd_norm c (g (ri c α y))).trans (norm_le_pi_norm g _)
    gcongr
  refine (Finset.sum_le_sum this).trans (le_of_eq ?_)
  rw [Finset.sum_const, Finset.card_univ]
  simp [Ends]
  ring

theorem one_sum_left {K : ℝ → ℝ → ℂ} (h : Kernel N K) {ι : Type} (s : Finset ι) (f : ι → F3) (b : F3) :
    one K (∑ i ∈ s, f i) b = ∑ i ∈ s, one K (f i) b :=
  map_sum (AddMonoidHom.mk' (fun a => one K a b) fun _ _ => one_add_left h _ _ _) f s

theorem one_sum_right {K : ℝ → ℝ → ℂ} (h : Kernel N K) {ι : Type} (s : Finset ι) (f : ι → F3) (a : F3) :
    one K a (∑ i ∈ s, f i) = ∑ i ∈ s, one K a (f i) :=
  map_sum (AddMonoidHom.mk' (fun b => one K a b) fun _ _ => one_add_right h _ _ _) f s

theorem core_assoc (h : Pairs N P) (h' : Pairs M Q) (c : Ch) (f g k : Spinless) :
    core P c (core Q c f g) k = core Q c f (core P c g k) := by
  funext α
  simp only [core, fwd_sum, fwd_back, one_sum_left (h c _), one_sum_right (h' c _), back_sum]
  rw [Finset.sum_comm]
  refine Finset.sum_congr rfl fun y' _ => Finset.sum_congr rfl fun y _ => ?_
  rw [one_assoc (h c y) (h' c y'), li_li, ri_li, ri_ri]

end

end Verif.Chains
