import Verif.Interp.Props
import Mathlib.LinearAlgebra.Lagrange

/-! C40 (stand-alone interpolators), C41: cubic interpolation and Lagrange polynomials. -/
namespace Verif.Interp
open Verif Verif.Index Verif.FreqGrid Verif.MultiArray

variable {V : Type} [AddCommGroup V] [Module ℝ V]

theorem getAux_ok {g : Grid} {i : Nat} (h : i < g.n) : getAux g (i : Int) = .ok (g.aux i) := by
  simp [getAux, h]

/-- **C40**, stand-alone version: `interpolate_lin_on_aux1D/2D/3D` reproduce data that are affine in each
auxiliary coordinate at every argument below the upper edges. -/
theorem c40_nested_affine_partial {gs : List Grid} {ws : List ℝ} (hv : ∀ g ∈ gs, g.Valid)
    (hin : List.Forall₂ (fun (g : Grid) w => g.lower ≤ w ∧ w < g.upper) gs ws)
    (f : List ℝ → V) (hf : MultiAffine gs.length f) (val : List Int → Res V)
    (hval : ∀ ks, InRange ks (gs.map (·.n)) →
      val (ks.map (Nat.cast)) = .ok (f (List.zipWith (fun (g : Grid) k => g.aux k) gs ks))) :
    linOnAux gs ws val = .ok (f (List.zipWith (fun (g : Grid) w => g.toT w) gs ws)) := by
  induction hin generalizing f val with
  | nil => exact hval [] List.Forall₂.nil
  | @cons g w gs ws h _ ih =>
    obtain ⟨⟨a, b, hab⟩, hf'⟩ := hf
    have hgv := hv g List.mem_cons_self
    obtain ⟨k, _, e, _, hk, x, y⟩ := c23_cell_partial hgv h.1 h.2
    have r0 := getAux_ok (g := g) (i := k) (by omega)
    have r1 := getAux_ok (g := g) (i := k + 1) hk
    push_cast at r1
    have e0 := ih (fun g' hg => hv g' (List.mem_cons_of_mem _ hg)) (fun l => f (g.aux k :: l)) (hf' _)
      (fun l => val ((k : Int) :: l)) (by
        intro ks hks
        have := hval (k :: ks) (List.Forall₂.cons (show k < g.n by omega) hks)
        simpa using this)
    have e1 := ih (fun g' hg => hv g' (List.mem_cons_of_mem _ hg)) (fun l => f (g.aux (k + 1) :: l)) (hf' _)
      (fun l => val (((k : Int) + 1) :: l)) (by
        intro ks hks
        have := hval ((k + 1) :: ks) (List.Forall₂.cons hk hks)
        simpa using this)
    simp only [linOnAux, e, r0, r1, e0, e1, bind, Except.bind, pure, Except.pure, List.zipWith_cons_cons]
    have hmono := ((c22_span_increasing hgv).2.2 k (k + 1) (by omega) hk).1
    have hm := hgv.maps.toT_strictMono
    have hlt := hm hmono
    have ht := (fraction hlt (hm.monotone x) (hm.monotone y.le)).2.2
    rw [hgv.toT_freq (by omega), hgv.toT_freq hk] at ht
    congr 1
    generalize (g.toT w - g.aux k) / (g.aux (k + 1) - g.aux k) = d at ht
    rw [hab, hab, hab, ht]
    module

/-! ### Four-point formula -/

/-- The four-point formula reproduces polynomials of degree at most three with coefficients in any vector
space, for four distinct nodes. -/
theorem fourPoint_cubic {K W : Type} [Field K] [AddCommGroup W] [Module K W] (t x0 x1 x2 x3 : K)
    (h01 : x0 ≠ x1) (h02 : x0 ≠ x2) (h03 : x0 ≠ x3) (h12 : x1 ≠ x2) (h13 : x1 ≠ x3) (h23 : x2 ≠ x3)
    (a b c d : W) :
    fourPoint t x0 x1 x2 x3 (a + x0 • b + x0^2 • c + x0^3 • d) (a + x1 • b + x1^2 • c + x1^3 • d)
      (a + x2 • b + x2^2 • c + x2^3 • d) (a + x3 • b + x3^2 • c + x3^3 • d)
      = a + t • b + t^2 • c + t^3 • d := by
  have k01 := sub_ne_zero.mpr h01
  have k02 := sub_ne_zero.mpr h02
  have k03 := sub_ne_zero.mpr h03
  have k12 := sub_ne_zero.mpr h12
  have k13 := sub_ne_zero.mpr h13
  have k23 := sub_ne_zero.mpr h23
  have k10 := sub_ne_zero.mpr h01.symm
  have k20 := sub_ne_zero.mpr h02.symm
  have k30 := sub_ne_zero.mpr h03.symm
  have k21 := sub_ne_zero.mpr h12.symm
  have k31 := sub_ne_zero.mpr h13.symm
  have k32 := sub_ne_zero.mpr h23.symm
  unfold fourPoint
  have e0 : (t - x1)*(t - x2)*(t - x3)/((x0-x1)*(x0-x2)*(x0-x3))
      + (t - x0)*(t - x2)*(t - x3)/((x1-x0)*(x1-x2)*(x1-x3))
      + (t - x0)*(t - x1)*(t - x3)/((x2-x0)*(x2-x1)*(x2-x3))
      + (t - x0)*(t - x1)*(t - x2)/((x3-x0)*(x3-x1)*(x3-x2)) = 1 := by
    rw [show x1 - x0 = -(x0 - x1) by ring, show x2 - x0 = -(x0 - x2) by ring,
      show x3 - x0 = -(x0 - x3) by ring, show x2 - x1 = -(x1 - x2) by ring,
      show x3 - x1 = -(x1 - x3) by ring, show x3 - x2 = -(x2 - x3) by ring]
    field_simp; ring
  have e1 : (t - x1)*(t - x2)*(t - x3)/((x0-x1)*(x0-x2)*(x0-x3)) * x0
      + (t - x0)*(t - x2)*(t - x3)/((x1-x0)*(x1-x2)*(x1-x3)) * x1
      + (t - x0)*(t - x1)*(t - x3)/((x2-x0)*(x2-x1)*(x2-x3)) * x2
      + (t - x0)*(t - x1)*(t - x2)/((x3-x0)*(x3-x1)*(x3-x2)) * x3 = t := by
    rw [show x1 - x0 = -(x0 - x1) by ring, show x2 - x0 = -(x0 - x2) by ring,
      show x3 - x0 = -(x0 - x3) by ring, show x2 - x1 = -(x1 - x2) by ring,
      show x3 - x1 = -(x1 - x3) by ring, show x3 - x2 = -(x2 - x3) by ring]
    field_simp; ring
  have e2 : (t - x1)*(t - x2)*(t - x3)/((x0-x1)*(x0-x2)*(x0-x3)) * x0^2
      + (t - x0)*(t - x2)*(t - x3)/((x1-x0)*(x1-x2)*(x1-x3)) * x1^2
      + (t - x0)*(t - x1)*(t - x3)/((x2-x0)*(x2-x1)*(x2-x3)) * x2^2
      + (t - x0)*(t - x1)*(t - x2)/((x3-x0)*(x3-x1)*(x3-x2)) * x3^2 = t^2 := by
    rw [show x1 - x0 = -(x0 - x1) by ring, show x2 - x0 = -(x0 - x2) by ring,
      show x3 - x0 = -(x0 - x3) by ring, show x2 - x1 = -(x1 - x2) by ring,
      show x3 - x1 = -(x1 - x3) by ring, show x3 - x2 = -(x2 - x3) by ring]
    field_simp; ring
  have e3 : (t - x1)*(t - x2)*(t - x3)/((x0-x1)*(x0-x2)*(x0-x3)) * x0^3
      + (t - x0)*(t - x2)*(t - x3)/((x1-x0)*(x1-x2)*(x1-x3)) * x1^3
      + (t - x0)*(t - x1)*(t - x3)/((x2-x0)*(x2-x1)*(x2-x3)) * x2^3
      + (t - x0)*(t - x1)*(t - x2)/((x3-x0)*(x3-x1)*(x3-x2)) * x3^3 = t^3 := by
    rw [show x1 - x0 = -(x0 - x1) by ring, show x2 - x0 = -(x0 - x2) by ring,
      show x3 - x0 = -(x0 - x3) by ring, show x2 - x1 = -(x1 - x2) by ring,
      show x3 - x1 = -(x1 - x3) by ring, show x3 - x2 = -(x2 - x3) by ring]
    field_simp; ring
  generalize (t - x1)*(t - x2)*(t - x3)/((x0-x1)*(x0-x2)*(x0-x3)) = l0 at *
  generalize (t - x0)*(t - x2)*(t - x3)/((x1-x0)*(x1-x2)*(x1-x3)) = l1 at *
  generalize (t - x0)*(t - x1)*(t - x3)/((x2-x0)*(x2-x1)*(x2-x3)) = l2 at *
  generalize (t - x0)*(t - x1)*(t - x2)/((x3-x0)*(x3-x1)*(x3-x2)) = l3 at *
  have hb : a + t • b + t^2 • c + t^3 • d = (1 : K) • a + t • b + t^2 • c + t^3 • d := by rw [one_smul]
  rw [hb, ← e3, ← e2, ← e1, ← e0]
  module

/-- **C41**, cubic interpolation: in one, two or three dimensions (the recursion holds in any), if every
coordinate of the argument has two grid points on each side, the interpolation of data that are polynomials
of degree at most three in each auxiliary coordinate returns the polynomial's value at the argument. -/
theorem c41_cubic {gs : List Grid} {ws : List ℝ} (hv : ∀ g ∈ gs, g.Valid)
    (hin : List.Forall₂ (fun (g : Grid) w => 4 ≤ g.n ∧ g.freq 1 ≤ w ∧ w < g.freq (g.n - 2)) gs ws)
    (f : List ℝ → V) (hf : MultiCubic gs.length f) (val : List Int → Res V)
    (hval : ∀ ks, InRange ks (gs.map (·.n)) →
      val (ks.map (Nat.cast)) = .ok (f (List.zipWith (fun (g : Grid) k => g.aux k) gs ks))) :
    sloppyCubic gs ws val = .ok (f (List.zipWith (fun (g : Grid) w => g.toT w) gs ws)) := by
  induction hin generalizing f val with
  | nil => exact hval [] List.Forall₂.nil
  | @cons g w gs ws h _ ih =>
    obtain ⟨hn, hlo, hhi⟩ := h
    obtain ⟨⟨a, b, c, d, habcd⟩, hf'⟩ := hf
    have hgv := hv g List.mem_cons_self
    obtain ⟨s0, s1, sm⟩ := c22_span_increasing hgv
    have hl : g.lower ≤ w := by
      have := (sm 0 1 (by omega) (by omega)).1
      linarith
    have hu : w < g.upper := by
      have := (sm (g.n - 2) (g.n - 1) (by omega) (by omega)).1
      linarith
    obtain ⟨k, _, e, _, hk, x, y⟩ := c23_cell_partial hgv hl hu
    have hk1 : 1 ≤ k := by
      by_contra hc
      have : k = 0 := by omega
      subst this
      simp only [Nat.zero_add] at y
      linarith
    have hk2 : k + 2 < g.n := by
      by_contra hc
      rcases Nat.lt_or_ge (g.n - 2) k with h | h
      · have := (sm (g.n - 2) k h (by omega)).1; linarith
      · have : k = g.n - 2 := by omega
        rw [this] at x; linarith
    obtain ⟨j, rfl⟩ : ∃ j, k = j + 1 := ⟨k - 1, by omega⟩
    have r0 := getAux_ok (g := g) (i := j) (by omega)
    have r1 := getAux_ok (g := g) (i := j + 1) (by omega)
    have r2 := getAux_ok (g := g) (i := j + 2) (by omega)
    have r3 := getAux_ok (g := g) (i := j + 3) (by omega)
    have c0 : (((j + 1 : Nat) : Int)) - 1 = ((j : Nat) : Int) := by push_cast; ring
    have c2 : (((j + 1 : Nat) : Int)) + 1 = ((j + 2 : Nat) : Int) := by push_cast; ring
    have c3 : (((j + 1 : Nat) : Int)) + 2 = ((j + 3 : Nat) : Int) := by push_cast; ring
    have step : ∀ i : Nat, i < g.n → sloppyCubic gs ws (fun l => val ((i : Int) :: l))
        = .ok (f (g.aux i :: List.zipWith (fun (g : Grid) w => g.toT w) gs ws)) := by
      intro i hi
      refine ih (fun g' hg => hv g' (List.mem_cons_of_mem _ hg)) (fun l => f (g.aux i :: l)) (hf' _)
        (fun l => val ((i : Int) :: l)) ?_
      intro ks hks
      have := hval (i :: ks) (List.Forall₂.cons hi hks)
      simpa using this
    simp only [sloppyCubic, e, c0, c2, c3, r0, r1, r2, r3, step j (by omega), step (j + 1) (by omega),
      step (j + 2) (by omega), step (j + 3) (by omega), bind, Except.bind, pure, Except.pure,
      List.zipWith_cons_cons]
    have hs := hgv.spacing_pos
    have hne : ∀ p q : Nat, p ≠ q → g.aux p ≠ g.aux q := by
      intro p q hpq he
      rw [hgv.aux_eq, hgv.aux_eq] at he
      have h1 : (p : ℝ) * g.spacing = q * g.spacing := by linarith
      have := mul_right_cancel₀ hs.ne' h1
      exact hpq (by exact_mod_cast this)
    rw [habcd, habcd, habcd, habcd, habcd,
      fourPoint_cubic _ _ _ _ _ (hne _ _ (by omega)) (hne _ _ (by omega)) (hne _ _ (by omega))
        (hne _ _ (by omega)) (hne _ _ (by omega)) (hne _ _ (by omega))]

/-- In the first and in the last cell of an axis, where there is no fourth neighbour, the cubic
interpolation fails with an assertion instead of returning a value. -/
theorem c41_edge_cells_assert {g : Grid} (hv : g.Valid) (gs : List Grid) (ws : List ℝ)
    (val : List Int → Res V) {w : ℝ} (h1 : g.lower ≤ w) (h2 : w < g.upper)
    (h : w < g.freq 1 ∨ g.freq (g.n - 2) ≤ w) :
    sloppyCubic (g :: gs) (w :: ws) val = .error .assertion := by
  obtain ⟨s0, s1, sm⟩ := c22_span_increasing hv
  have hn := hv.two
  obtain ⟨k, _, e, _, hk, x, y⟩ := c23_cell_partial hv h1 h2
  rcases h with h | h
  · have hk0 : k = 0 := by
      by_contra hc
      rcases Nat.lt_or_ge 1 k with h' | h'
      · have := (sm 1 k h' (by omega)).1; linarith
      · have : k = 1 := by omega
        rw [this] at x; linarith
    subst hk0
    have : getAux g (((0 : Nat) : Int) - 1) = .error .assertion := by simp [getAux]
    simp only [sloppyCubic, e, this, bind, Except.bind]
  · have hk0 : k = g.n - 2 := by
      by_contra hc
      rcases Nat.lt_or_ge (k + 1) (g.n - 2) with h' | h'
      · have := (sm (k + 1) (g.n - 2) h' (by omega)).1; linarith
      · have : k + 1 = g.n - 2 := by omega
        rw [this] at y; linarith
    have r3 : getAux g ((k : Int) + 2) = .error .assertion := by
      unfold getAux
      rw [if_neg]; omega
    by_cases hz : k = 0
    · subst hz
      have : getAux g (((0 : Nat) : Int) - 1) = .error .assertion := by simp [getAux]
      simp only [sloppyCubic, e, this, bind, Except.bind]
    · have r0 := getAux_ok (g := g) (i := k - 1) (by omega)
      have r1 := getAux_ok (g := g) (i := k) (by omega)
      have r2 := getAux_ok (g := g) (i := k + 1) (by omega)
      rw [show (((k - 1 : Nat)) : Int) = (k : Int) - 1 by omega] at r0
      push_cast at r2
      simp only [sloppyCubic, e, r0, r1, r2, r3, bind, Except.bind]

example : ∃ w : ℝ, (keldyshGrid 1 0 1 5).freq 1 ≤ w ∧ w < (keldyshGrid 1 0 1 5).freq (5 - 2) :=
  ⟨_, le_refl _, (c22_default one_pos one_pos 0 (by norm_num : 2 ≤ 5)).2.2.1 1 3 (by norm_num) (by norm_num)⟩

/-- A cubic in two variables, as an instance of the data hypothesis. -/
example : MultiCubic 2 (fun l : List ℝ => (l.getD 0 0)^3 * (l.getD 1 0)^2 + l.getD 1 0) := by
  refine ⟨⟨fun xs => xs.getD 0 0, fun _ => 0, fun _ => 0, fun xs => (xs.getD 0 0)^2, ?_⟩, fun x =>
    ⟨⟨fun _ => 0, fun _ => 1, fun _ => x^3, fun _ => 0, ?_⟩, fun _ => trivial⟩⟩
  · intro x xs; simp; ring
  · intro y ys; simp; ring

/-! ### Lagrange polynomials -/

section
variable {K : Type} [Field K]

theorem prodFold (x : K) (xs : Nat → K) (i : Nat) (l : List Nat) (p q : K) :
    l.foldl (fun (p : K × K) k => (p.1 * (x - xs k), p.2 * (xs i - xs k))) (p, q)
      = (p * (l.map fun k => x - xs k).prod, q * (l.map fun k => xs i - xs k).prod) := by
  induction l generalizing p q with
  | nil => simp
  | cons k l ih => rw [List.foldl_cons, ih]; simp [mul_assoc]

theorem skipProd (n i : Nat) (hi : i < n) (f : Nat → K) :
    ((List.range i ++ List.range' (i + 1) (n - (i + 1))).map f).prod
      = ∏ k ∈ (Finset.range n).erase i, f k := by
  have hnd : (List.range i ++ List.range' (i + 1) (n - (i + 1))).Nodup := by
    rw [List.nodup_append]
    refine ⟨List.nodup_range, List.nodup_range', ?_⟩
    intro a ha b hb hab
    rw [List.mem_range] at ha
    rw [List.mem_range'_1] at hb
    omega
  rw [← List.prod_toFinset _ hnd]
  apply Finset.prod_congr _ fun _ _ => rfl
  ext k
  simp only [List.mem_toFinset, List.mem_append, List.mem_range, List.mem_range'_1, Finset.mem_erase,
    Finset.mem_range]
  omega

theorem sumFold (n : Nat) (f : Nat → K) :
    (List.range n).foldl (fun r i => r + f i) 0 = ∑ i ∈ Finset.range n, f i := by
  induction n with
  | zero => simp
  | succ n ih => rw [List.range_succ, List.foldl_append, ih, Finset.sum_range_succ]; rfl

theorem foldl_range_congr {α : Type} (n : Nat) (f g : α → Nat → α) (a : α)
    (h : ∀ i < n, ∀ r, f r i = g r i) : (List.range n).foldl f a = (List.range n).foldl g a := by
  apply List.foldl_ext
  intro r i hi
  exact h i (List.mem_range.mp hi) r

/-- The loops compute the Lagrange form. -/
theorem lagrangePoly_eq (n : Nat) (x : K) (xs ys : Nat → K) :
    lagrangePoly n x xs ys = ∑ i ∈ Finset.range n,
      ys i * (∏ k ∈ (Finset.range n).erase i, (x - xs k)) / ∏ k ∈ (Finset.range n).erase i, (xs i - xs k) := by
  unfold lagrangePoly
  rw [← sumFold]
  apply foldl_range_congr
  intro i hi r
  simp only [prodFold, one_mul]
  rw [skipProd n i hi, skipProd n i hi]

open Polynomial in
theorem lagrangePoly_eval (n : Nat) (x : K) (xs ys : Nat → K) :
    lagrangePoly n x xs ys = (Lagrange.interpolate (Finset.range n) xs ys).eval x := by
  rw [lagrangePoly_eq, Lagrange.interpolate_apply, eval_finsetSum]
  apply Finset.sum_congr rfl
  intro i _
  rw [eval_mul, eval_C, Lagrange.basis, eval_prod, mul_div_assoc]
  congr 1
  rw [← Finset.prod_div_distrib]
  apply Finset.prod_congr rfl
  intro k _
  simp [Lagrange.basisDivisor, div_eq_inv_mul]

open Polynomial in
/-- **C41**, Lagrange interpolation: through `n` pairwise distinct nodes it reproduces every polynomial of
degree below `n` at every argument, and it takes the prescribed values at the nodes. -/
theorem c41_lagrange (n : Nat) (xs : Nat → K) (hx : ∀ i j, i < n → j < n → xs i = xs j → i = j) :
    (∀ p : K[X], p.degree < n → ∀ x, lagrangePoly n x xs (fun i => p.eval (xs i)) = p.eval x) ∧
    ∀ (ys : Nat → K) (j : Nat), j < n → lagrangePoly n (xs j) xs ys = ys j := by
  have hinj : Set.InjOn xs (Finset.range n : Set Nat) := by
    intro i hi j hj h
    exact hx i j (by simpa using hi) (by simpa using hj) h
  constructor
  · intro p hp x
    rw [lagrangePoly_eval]
    have := Lagrange.eq_interpolate (f := p) hinj (by simpa using hp)
    rw [← this]
  · intro ys j hj
    rw [lagrangePoly_eval, Lagrange.eval_interpolate_at_node _ hinj (by simpa using hj)]

example : ∀ i j, i < 5 → j < 5 → ((fun n : Nat => (n : ℚ)) i) = (fun n : Nat => (n : ℚ)) j → i = j := by
  intro i j _ _ h; simpa using h

end

end Verif.Interp
