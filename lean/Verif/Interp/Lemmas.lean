import Verif.Interp.Model
import Verif.Interp.Spec
import Verif.FreqGrid.Props
import Verif.MultiArray.Props
import Mathlib.Tactic.Module
import Mathlib.Tactic.Positivity
import Mathlib.Tactic.Linarith

namespace Verif.Interp
open Verif Verif.Index Verif.FreqGrid Verif.MultiArray

variable {V : Type} [AddCommGroup V] [Module ℝ V]

/-! ### Weights -/

theorem weights_one (a : ℝ) : weights [a] = [1 - a, a] := rfl

theorem weights_two (a b : ℝ) :
    weights [a, b] = [(1 - b) * (1 - a), b * (1 - a), (1 - b) * a, b * a] := rfl

theorem weights_three (a b c : ℝ) :
    weights [a, b, c] = [(1 - c) * ((1 - b) * (1 - a)), c * ((1 - b) * (1 - a)), (1 - c) * (b * (1 - a)),
      c * (b * (1 - a)), (1 - c) * ((1 - b) * a), c * ((1 - b) * a), (1 - c) * (b * a), c * (b * a)] := rfl

/-- The weighted sum of the columns is the multilinear combination of the corners, numbered with the first
axis slowest. -/
theorem matVec_weights (ds : List ℝ) (h1 : 1 ≤ ds.length) (h3 : ds.length ≤ 3) (cols : List (List V))
    (hc : cols.length = 2 ^ ds.length) (vecsize : Nat) :
    matVec vecsize cols (weights ds) = (List.range vecsize).map fun v =>
      multilin ds (fun o => (cols.getD (rowMajor o (List.replicate ds.length 2)) []).getD v 0) := by
  unfold matVec
  apply List.map_congr_left
  intro v _
  match ds, h1, h3 with
  | [a], _, _ =>
    match cols, hc with
    | [c0, c1], _ =>
      rw [weights_one]
      simp [multilin, rowMajor]
  | [a, b], _, _ =>
    match cols, hc with
    | [c0, c1, c2, c3], _ =>
      rw [weights_two]
      simp [multilin, rowMajor]
      module
  | [a, b, c], _, _ =>
    match cols, hc with
    | [c0, c1, c2, c3, c4, c5, c6, c7], _ =>
      rw [weights_three]
      simp [multilin, rowMajor]
      module

/-! ### Multilinear combinations -/

theorem multilin_congr (ds : List ℝ) {f g : List Nat → V}
    (h : ∀ o, InRange o (List.replicate ds.length 2) → f o = g o) : multilin ds f = multilin ds g := by
  induction ds generalizing f g with
  | nil => exact h [] List.Forall₂.nil
  | cons d ds ih =>
    simp only [multilin]
    rw [ih fun o ho => h (0 :: o) (List.Forall₂.cons (by norm_num) ho),
      ih fun o ho => h (1 :: o) (List.Forall₂.cons (by norm_num) ho)]

theorem multilin_bounds (ds : List ℝ) (hd : ∀ d ∈ ds, 0 ≤ d ∧ d ≤ 1) {f : List Nat → ℝ} {lo hi : ℝ}
    (h : ∀ o, InRange o (List.replicate ds.length 2) → lo ≤ f o ∧ f o ≤ hi) :
    lo ≤ multilin ds f ∧ multilin ds f ≤ hi := by
  induction ds generalizing f with
  | nil => exact h [] List.Forall₂.nil
  | cons d ds ih =>
    simp only [multilin, smul_eq_mul]
    obtain ⟨a1, a2⟩ := ih (fun d hd' => hd d (List.mem_cons_of_mem _ hd'))
      (f := fun o => f (0 :: o)) fun o ho => h (0 :: o) (List.Forall₂.cons (by norm_num) ho)
    obtain ⟨b1, b2⟩ := ih (fun d hd' => hd d (List.mem_cons_of_mem _ hd'))
      (f := fun o => f (1 :: o)) fun o ho => h (1 :: o) (List.Forall₂.cons (by norm_num) ho)
    obtain ⟨d0, d1⟩ := hd d List.mem_cons_self
    constructor <;> nlinarith

/-- At the corners. -/
theorem multilin_corner (js ks : List Nat) (ds : List ℝ) (hk : ks.length = js.length)
    (h : List.Forall₂ (fun j (p : Nat × ℝ) => (p.1 = j ∧ p.2 = 0) ∨ (p.1 + 1 = j ∧ p.2 = 1)) js (ks.zip ds))
    (hd : ds.length = js.length) (F : List Nat → V) :
    multilin ds (fun o => F (List.zipWith (· + ·) ks o)) = F js := by
  induction js generalizing ks ds F with
  | nil =>
    match ks, ds, hk, hd with
    | [], [], _, _ => rfl
  | cons j js ih =>
    match ks, ds, hk, hd with
    | k :: ks, d :: ds, hk, hd =>
      simp only [List.zip_cons_cons, List.forall₂_cons] at h
      obtain ⟨h0, h⟩ := h
      have hk' : ks.length = js.length := by simpa using hk
      have hd' : ds.length = js.length := by simpa using hd
      have e0 := ih ks ds hk' h hd' (fun l => F (k :: l))
      have e1 := ih ks ds hk' h hd' (fun l => F ((k + 1) :: l))
      simp only [multilin, List.zipWith_cons_cons, Nat.add_zero] at *
      rw [e0, e1]
      rcases h0 with ⟨rfl, rfl⟩ | ⟨rfl, rfl⟩ <;> simp

/-- Multilinear combinations reproduce functions affine in each coordinate. -/
theorem multilin_affine (ds : List ℝ) (ks : List Nat) (cs : List (Nat → ℝ)) (xs : List ℝ)
    (hk : ks.length = ds.length) (hc : cs.length = ds.length) (hx : xs.length = ds.length)
    (f : List ℝ → V) (hf : MultiAffine ds.length f)
    (h : ∀ i (h1 : i < ds.length),
      xs[i]'(hx ▸ h1) = (1 - ds[i]) * (cs[i]'(hc ▸ h1)) (ks[i]'(hk ▸ h1))
        + ds[i] * (cs[i]'(hc ▸ h1)) (ks[i]'(hk ▸ h1) + 1)) :
    multilin ds (fun o => f (List.zipWith (fun c k => c k) cs (List.zipWith (· + ·) ks o))) = f xs := by
  induction ds generalizing ks cs xs f with
  | nil =>
    match ks, cs, xs, hk, hc, hx with
    | [], [], [], _, _, _ => rfl
  | cons d ds ih =>
    match ks, cs, xs, hk, hc, hx with
    | k :: ks, c :: cs, x :: xs, hk, hc, hx =>
      obtain ⟨⟨a, b, hab⟩, hf'⟩ := hf
      have hk' : ks.length = ds.length := by simpa using hk
      have hc' : cs.length = ds.length := by simpa using hc
      have hx' : xs.length = ds.length := by simpa using hx
      have h0 := h 0 (by simp)
      have hS : ∀ i (h1 : i < ds.length),
          xs[i]'(hx' ▸ h1) = (1 - ds[i]) * (cs[i]'(hc' ▸ h1)) (ks[i]'(hk' ▸ h1))
            + ds[i] * (cs[i]'(hc' ▸ h1)) (ks[i]'(hk' ▸ h1) + 1) := by
        intro i h1
        have := h (i + 1) (by simpa using h1)
        simpa using this
      have e0 := ih ks cs xs hk' hc' hx' (fun l => f (c k :: l)) (hf' _) hS
      have e1 := ih ks cs xs hk' hc' hx' (fun l => f (c (k + 1) :: l)) (hf' _) hS
      simp only [multilin, List.zipWith_cons_cons, Nat.add_zero] at *
      rw [e0, e1]
      simp only [List.getElem_cons_zero] at h0
      rw [hab, hab, hab, h0]
      module

/-! ### Multi-indices -/

theorem setFrom_append (a b c ks : List Nat) (h : b.length = ks.length) :
    setFrom (a ++ b ++ c) a.length ks = a ++ ks ++ c := by
  induction ks generalizing a b with
  | nil =>
    have : b = [] := List.length_eq_zero_iff.mp (by simpa using h)
    simp [setFrom, this]
  | cons k ks ih =>
    match b, h with
    | x :: b, h =>
      have hs : (a ++ x :: b ++ c).set a.length k = (a ++ [k]) ++ b ++ c := by
        simp [List.set_append_right]
      rw [setFrom, hs]
      have := ih (a ++ [k]) b (by simpa using h)
      simp only [List.length_append, List.length_singleton] at this
      rw [this]; simp

theorem addAt_append (a ks : List Nat) (o : List Nat) (v x : Nat) (c : List Nat) (h : o.length = ks.length) :
    addAt (a ++ ks ++ x :: c) a.length (o ++ [v]) = a ++ List.zipWith (· + ·) ks o ++ (x + v) :: c := by
  induction a with
  | nil =>
    simp only [List.nil_append, List.length_nil]
    induction ks generalizing o with
    | nil =>
      have : o = [] := List.length_eq_zero_iff.mp (by simpa using h)
      subst this
      cases c <;> simp [addAt]
    | cons k ks ih =>
      match o, h with
      | y :: o, h => simp [addAt, ih o (by simpa using h)]
  | cons y a ih =>
    simp only [List.cons_append, List.length_cons, addAt]
    rw [ih]

theorem InRange.append {a b c d : List Nat} (h : InRange a b) (h' : InRange c d) :
    InRange (a ++ c) (b ++ d) := by
  induction h with
  | nil => simpa using h'
  | cons h _ ih => exact List.Forall₂.cons h ih

end Verif.Interp
