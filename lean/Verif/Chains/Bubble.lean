import Verif.Chains.Core

/-! The bubbles with spin, as bilinear maps. -/
namespace Verif.Chains
open Verif.Heredity Verif.Invariant MeasureTheory Filter Topology
open Verif.Freqs (Ch)

/-- The bubble by spin components. -/
noncomputable def spinBubble (P : Pair) (c : Ch) (A B : Four) : Four := fun s =>
  match c, s with
  | .a, false => core P .a (A false) (B false)
  | .a, true => core P .a (A false + A true) (B true) + core P .a (A true) (B false + B true)
  | .p, false => core P .p (A false) (B false)
  | .p, true => core P .p (A true) (B false)
  | .t, false => core P .t (A false) (B false + B true) + core P .t (A false + A true) (B false)
  | .t, true => core P .t (A true) (B true)

variable {N M : ℝ} {P Q : Pair}

theorem Four.add_apply (A B : Four) (s : Bool) : (A + B) s = A s + B s := rfl
theorem Four.smul_apply (r : ℝ) (A : Four) (s : Bool) : (r • A) s = r • A s := rfl
theorem Four.norm_le {A : Four} {b : ℝ} (h : 0 ≤ b) : ‖A‖ ≤ b ↔ ∀ s, ‖(A s : Spinless)‖ ≤ b :=
  pi_norm_le_iff_of_nonneg (x := (A : Bool → Spinless)) h
theorem Four.le_norm (A : Four) (s : Bool) : ‖(A s : Spinless)‖ ≤ ‖A‖ := (Four.norm_le (norm_nonneg A)).1 le_rfl s

theorem spin_add_left (h : Pairs N P) (c : Ch) (A A' B : Four) : spinBubble P c (A + A') B = spinBubble P c A B + spinBubble P c A' B := by
  funext s
  cases c <;> cases s <;> simp only [spinBubble, Four.add_apply, core_add_left h] <;> abel

theorem spin_add_right (h : Pairs N P) (c : Ch) (A B B' : Four) : spinBubble P c A (B + B') = spinBubble P c A B + spinBubble P c A B' := by
  funext s
  cases c <;> cases s <;> simp only [spinBubble, Four.add_apply, core_add_right h] <;> abel

theorem spin_smul_left (h : Pairs N P) (c : Ch) (r : ℝ) (A B : Four) : spinBubble P c (r • A) B = r • spinBubble P c A B := by
  funext s
  cases c <;> cases s <;> simp only [spinBubble, Four.smul_apply, ← smul_add, core_smul_left h]

theorem spin_smul_right (h : Pairs N P) (c : Ch) (r : ℝ) (A B : Four) : spinBubble P c A (r • B) = r • spinBubble P c A B := by
  funext s
  cases c <;> cases s <;> simp only [spinBubble, Four.smul_apply, ← smul_add, core_smul_right h]

theorem spin_assoc (h : Pairs N P) (h' : Pairs M Q) (c : Ch) (A B C : Four) :
    spinBubble P c (spinBubble Q c A B) C = spinBubble Q c A (spinBubble P c B C) := by
  funext s
  cases c <;> cases s <;> simp only [spinBubble, core_add_left h, core_add_right h, core_add_left h', core_add_right h', core_assoc h h'] <;> abel

theorem spin_norm (h : Pairs N P) (c : Ch) (A B : Four) : ‖spinBubble P c A B‖ ≤ 64 * N * ‖A‖ * ‖B‖ := by
  have N0 : 0 ≤ N := (h .a (true, true, true, true)).nonneg
  have a0 := Four.le_norm A false
  have a1 := Four.le_norm A true
  have b0 := Four.le_norm B false
  have b1 := Four.le_norm B true
  have a2 := (norm_add_le (A false) (A true)).trans (add_le_add a0 a1)
  have b2 := (norm_add_le (B false) (B true)).trans (add_le_add b0 b1)
  have nA := norm_nonneg A
  have nB := norm_nonneg B
  have P0 : 0 ≤ N * ‖A‖ * ‖B‖ := by positivity
  have k : ∀ (f g : Spinless) (x y : ℝ), ‖f‖ ≤ x → ‖g‖ ≤ y → ‖core P c f g‖ ≤ 16 * N * x * y := fun f g x y hx hy =>
    (core_norm h c f g).trans (by
      have := (norm_nonneg f).trans hx
      gcongr)
  refine (Four.norm_le (by positivity)).2 fun s => ?_
  cases c <;> cases s <;> simp only [spinBubble]
  · exact (k _ _ _ _ a0 b0).trans (by linarith)
  · exact (norm_add_le _ _).trans ((add_le_add (k _ _ _ _ a2 b1) (k _ _ _ _ a1 b2)).trans (by linarith))
  · exact (k _ _ _ _ a0 b0).trans (by linarith)
  · exact (k _ _ _ _ a1 b0).trans (by linarith)
  · exact (norm_add_le _ _).trans ((add_le_add (k _ _ _ _ a0 b2) (k _ _ _ _ a2 b0)).trans (by linarith))
  · exact (k _ _ _ _ a1 b1).trans (by linarith)

/-- The bubbles as bilinear maps; zero for pairs that cannot be integrated. -/
noncomputable def bubbles (P : Pair) (r : Keldysh.Ch) : Four →L[ℝ] Four →L[ℝ] Four :=
  open Classical in
  if h : ∃ N, Pairs N P then
    LinearMap.mkContinuous₂ (LinearMap.mk₂ ℝ (spinBubble P (chan r)) (fun _ _ _ => spin_add_left h.choose_spec _ _ _ _)
      (fun _ _ _ => spin_smul_left h.choose_spec _ _ _ _) (fun _ _ _ => spin_add_right h.choose_spec _ _ _ _)
      (fun _ _ _ => spin_smul_right h.choose_spec _ _ _ _)) (64 * h.choose) (fun A B => spin_norm h.choose_spec (chan r) A B)
  else 0

theorem bubbles_apply (h : Pairs N P) (r : Keldysh.Ch) (A B : Four) : bubbles P r A B = spinBubble P (chan r) A B := by
  rw [bubbles, dif_pos ⟨N, h⟩]; rfl

theorem bubbles_norm (h : Pairs N P) (r : Keldysh.Ch) : ‖bubbles P r‖ ≤ 64 * N := by
  have N0 : 0 ≤ N := (h .a (true, true, true, true)).nonneg
  refine ContinuousLinearMap.opNorm_le_bound₂ _ (by positivity) fun A B => ?_
  rw [bubbles_apply h]
  exact spin_norm h _ A B

end Verif.Chains
