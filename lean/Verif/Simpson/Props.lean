import Verif.Simpson.Model
import Mathlib.Tactic.Linarith
import Mathlib.Tactic.Module
import Mathlib.Tactic.FieldSimp
import Mathlib.Tactic.IntervalCases
import Mathlib.Analysis.Complex.Basic
import Mathlib.Algebra.Module.BigOperators

/-
C88: Simpson integration is exact for polynomials up to degree three.
C89: adaptive Simpson integration ends, and is exact for polynomials up to degree three.
-/
namespace Verif.Simpson

section
variable {E : Type} [NormedAddCommGroup E] [NormedSpace ℝ E]

/-- The integrand `∑ xᵏ cₖ` and its integral from `a` to `b`. -/
noncomputable def cubic (c : Fin 4 → E) (x : ℝ) : E := c 0 + x • c 1 + x ^ 2 • c 2 + x ^ 3 • c 3

noncomputable def integralCubic (c : Fin 4 → E) (a b : ℝ) : E :=
  (b - a) • c 0 + ((b ^ 2 - a ^ 2) / 2) • c 1 + ((b ^ 3 - a ^ 3) / 3) • c 2 + ((b ^ 4 - a ^ 4) / 4) • c 3

theorem panel (c : Fin 4 → E) (x h : ℝ) :
    (h / 3) • (cubic c x + (4 : ℝ) • cubic c (x + h) + cubic c (x + 2 * h)) = integralCubic c x (x + 2 * h) := by
  simp only [cubic, integralCubic]
  module

theorem integralCubic_add (c : Fin 4 → E) (a b d : ℝ) :
    integralCubic c a b + integralCubic c b d = integralCubic c a d := by
  simp only [integralCubic]
  module

/-- Weights before the last point. -/
def inner (i : Nat) : ℝ := if i = 0 then 1 else 2 + 2 * ((i % 2 : Nat) : ℝ)

theorem weight_sum (n : Nat) (g : Nat → E) (hn : 0 < n) :
    ∑ i ∈ Finset.range (n + 1), weight (n + 1) i • g i = ∑ i ∈ Finset.range n, inner i • g i + g n := by
  rw [Finset.sum_range_succ]
  congr 1
  · refine Finset.sum_congr rfl fun i hi => ?_
    have : ¬ i = n + 1 - 1 := by have := Finset.mem_range.mp hi; omega
    simp only [weight, inner, this, if_false]
  · simp [weight]

theorem odd_sum (g : Nat → E) (m : Nat) : ∑ i ∈ Finset.range (2 * (m + 1) + 1), weight (2 * (m + 1) + 1) i • g i =
    ∑ j ∈ Finset.range (m + 1), (g (2 * j) + (4 : ℝ) • g (2 * j + 1) + g (2 * j + 2)) := by
  rw [weight_sum _ _ (by omega)]
  induction m with
  | zero =>
    simp only [Finset.sum_range_succ, Finset.sum_range_zero, inner]
    norm_num
  | succ m ih =>
    rw [Finset.sum_range_succ _ (m + 1), ← ih]
    have e : 2 * (m + 1 + 1) = 2 * (m + 1) + 1 + 1 := by ring
    rw [e, Finset.sum_range_succ, Finset.sum_range_succ]
    have i1 : inner (2 * (m + 1)) = 2 := by
      have : (2 * (m + 1)) % 2 = 0 := by omega
      simp [inner, this]
    have i2 : inner (2 * (m + 1) + 1) = 4 := by
      have : (2 * (m + 1) + 1) % 2 = 1 := by omega
      simp [inner, this]; norm_num
    rw [i1, i2]
    module

theorem simpsonSum_odd (c : Fin 4 → E) (a b : ℝ) (N : Int) (hN : N < 3 ∨ N % 2 = 1) :
    simpsonSum (cubic c) a b N = integralCubic c a b := by
  obtain ⟨m, hm⟩ : ∃ m : Nat, (if N < 3 then 3 else N).toNat = 2 * (m + 1) + 1 := by
    split_ifs with h
    · exact ⟨0, rfl⟩
    · have := hN.resolve_left h
      exact ⟨(N.toNat - 3) / 2, by omega⟩
  simp only [simpsonSum, hm]
  have hc : (((2 * (m + 1) + 1 : Nat) : ℝ) - 1) = 2 * (m + 1) := by push_cast; ring
  rw [hc, odd_sum (fun i => cubic c (a + (i : ℝ) * ((b - a) / (2 * ((m : ℝ) + 1)))))]
  have hm0 : (2 * ((m : ℝ) + 1)) ≠ 0 := by positivity
  have hb : b = a + 2 * ((m + 1 : Nat) : ℝ) * ((b - a) / (2 * ((m : ℝ) + 1))) := by
    push_cast; field_simp; ring
  generalize (b - a) / (2 * ((m : ℝ) + 1)) = dx at hb ⊢
  rw [hb]
  clear hb hm0 hc hm hN
  induction m + 1 with
  | zero => simp [integralCubic]
  | succ k ih =>
    rw [Finset.sum_range_succ, smul_add, ih]
    have p := panel c (a + 2 * (k : ℝ) * dx) dx
    have e1 : a + ((2 * k : Nat) : ℝ) * dx = a + 2 * (k : ℝ) * dx := by push_cast; ring
    have e2 : a + ((2 * k + 1 : Nat) : ℝ) * dx = a + 2 * (k : ℝ) * dx + dx := by push_cast; ring
    have e3 : a + ((2 * k + 2 : Nat) : ℝ) * dx = a + 2 * (k : ℝ) * dx + 2 * dx := by push_cast; ring
    have e4 : a + 2 * ((k + 1 : Nat) : ℝ) * dx = a + 2 * (k : ℝ) * dx + 2 * dx := by push_cast; ring
    rw [e1, e2, e3, e4, p, integralCubic_add]

/-- C88 (partial: complex-valued integrands, odd number of points).  Exact for every polynomial of degree at most three, every interval
and every odd number of points (fewer than three points become three). -/
theorem c88_odd_partial (c : Fin 4 → E) (a b : ℝ) (N : Int) (hN : N < 3 ∨ N % 2 = 1) :
    simpson false (cubic c) a b N = .ok (integralCubic c a b) := by
  rw [simpson]
  simp only [Bool.false_eq_true, if_false, simpsonSum_odd c a b N hN]

theorem makeOdd_odd (N : Int) : makeOdd N % 2 = 1 := by
  unfold makeOdd; split_ifs <;> omega

/-- C88 (one feature).  The version that resolves one feature is exact for cubics for every number of points and every
position of the feature. -/
theorem c88_feature_partial (c : Fin 4 → E) (a b w : ℝ) (N : Int) (hab : a ≠ b) :
    simpsonFeature (cubic c) a b w N = .ok (integralCubic c a b) := by
  have h : ¬ b - a = 0 := fun h => hab (by linarith)
  simp only [simpsonFeature, h, if_false]
  rw [simpsonSum_odd _ _ _ _ (Or.inr (makeOdd_odd _)), simpsonSum_odd _ _ _ _ (Or.inr (makeOdd_odd _)),
    simpsonSum_odd _ _ _ _ (Or.inr (makeOdd_odd _)), zero_add, integralCubic_add, integralCubic_add]

/-- C88 (two features).  Exact for cubics if the features are more than five away from the upper limit, or the number of
points is odd. -/
theorem c88_two_partial (c : Fin 4 → E) (a b w1 w2 : ℝ) (N : Int) (hab : a ≠ b)
    (hN : N < 3 ∨ N % 2 = 1 ∨ max w1 w2 + 5 < b) :
    simpsonTwo (cubic c) a b w1 w2 N = .ok (integralCubic c a b) := by
  have h : ¬ b - a = 0 := fun h => hab (by linarith)
  have e : (if w1 < w2 then w2 else w1) = max w1 w2 := by
    split_ifs with h
    · rw [max_eq_right h.le]
    · rw [max_eq_left (not_lt.mp h)]
  have odd : ∀ a b M, simpsonSum (cubic c) a b (makeOdd M) = integralCubic c a b := fun a b M =>
    simpsonSum_odd _ _ _ _ (Or.inr (makeOdd_odd _))
  simp only [simpsonTwo, e, h, if_false, odd]
  generalize (if w1 < w2 then w1 else w2) = w
  split_ifs with h1 h2
  · congr 1
    simp only [integralCubic]
    module
  · congr 1
    simp only [integralCubic]
    module
  · rw [simpsonSum_odd]
    · congr 1
      simp only [integralCubic]
      module
    · rcases hN with h | h | h
      · exact Or.inl h
      · exact Or.inr h
      · exfalso; apply h1; linarith

theorem inner_sum (m : Nat) : ∑ i ∈ Finset.range (2 * m + 1), inner i = 1 + 6 * m := by
  induction m with
  | zero => simp [inner]
  | succ m ih =>
    have e : 2 * (m + 1) + 1 = 2 * m + 1 + 1 + 1 := by ring
    rw [e, Finset.sum_range_succ, Finset.sum_range_succ, ih]
    have i1 : (2 * m + 1) % 2 = 1 := by omega
    have i2 : (2 * m + 1 + 1) % 2 = 0 := by omega
    simp only [inner, i1, i2]
    push_cast
    norm_num
    ring

theorem even_const (x : E) (a b : ℝ) (m : Nat) (hm : 0 < m) :
    simpsonSum (fun _ => x) a b (2 * m + 2) = ((6 * m + 2) / (6 * m + 3) * (b - a) : ℝ) • x := by
  have hn : (if (2 * (m : Int) + 2) < 3 then 3 else 2 * (m : Int) + 2).toNat = 2 * m + 1 + 1 := by
    rw [if_neg (by omega)]; omega
  simp only [simpsonSum, hn]
  rw [weight_sum _ _ (by omega), ← Finset.sum_smul, inner_sum]
  have hc : ((2 * m + 1 + 1 : Nat) : ℝ) - 1 = 2 * m + 1 := by push_cast; ring
  rw [hc]
  have : (1 + 6 * (m : ℝ)) • x + x = (6 * (m : ℝ) + 2) • x := by module
  rw [this, smul_smul]
  congr 1
  have h1 : (2 * (m : ℝ) + 1) ≠ 0 := by positivity
  have h2 : (6 * (m : ℝ) + 3) ≠ 0 := by positivity
  field_simp
  ring

/-- C88 fails for every even number of points from four on, already for constants: instead of the length of the interval
a fraction `(3N - 4) / (3N - 3)` of it is returned. -/
theorem c88_even_refuted (a b : ℝ) (m : Nat) (hm : 0 < m) : simpson false (fun _ => (1 : ℂ)) a b (2 * m + 2) =
    .ok (((3 * (2 * m + 2) - 4) / (3 * (2 * m + 2) - 3) * (b - a) : ℝ) : ℂ) := by
  rw [simpson]
  simp only [Bool.false_eq_true, if_false]
  rw [even_const _ _ _ _ hm]
  congr 1
  rw [Complex.real_smul, mul_one]
  congr 2
  congr 1
  · ring
  · ring

/-- C88 fails for real-valued integrands: an uninitialised variable is read. -/
theorem c88_double_refuted (f : ℝ → ℝ) (a b : ℝ) (N : Int) : simpson true f a b N = .error .undefined := rfl

/-- C88 fails for the version for two features close to the limits with an even number of points. -/
theorem c88_two_refuted : simpsonTwo (fun _ => (1 : ℂ)) 0 10 2 8 4 = .ok (94 / 9) := by
  have odd : ∀ a b M, simpsonSum (fun _ => (1 : ℂ)) a b (makeOdd M) = ((b - a : ℝ) : ℂ) := fun a b M => by
    have := simpsonSum_odd (E := ℂ) ![1, 0, 0, 0] a b (makeOdd M) (Or.inr (makeOdd_odd _))
    have e : (cubic (E := ℂ) ![1, 0, 0, 0]) = fun _ => 1 := by funext x; simp [cubic]
    rw [e] at this
    rw [this]
    simp [integralCubic]
  have even := even_const (1 : ℂ) 7 3 1 (by norm_num)
  norm_num at even
  simp only [simpsonTwo]
  norm_num [odd, even]

end

section
variable {K : Type} [NormedField K] [NormedSpace ℝ K]

/-! The adaptive version. -/

theorem halve_length (f : ℝ → K) (dx : ℝ) (c : Cell K) : (halve f dx c).length = 2 := rfl

theorem pass_length (f : ℝ → K) (dx : ℝ) (it : Nat) : ∀ cells : List (Cell K),
    cells.length ≤ (pass f dx it cells).length ∧
      ((∃ c ∈ cells, c.conv = false) → cells.length + 1 ≤ (pass f dx it cells).length) := by
  intro cells
  induction cells with
  | nil => simp [pass]
  | cons c r ih =>
    have e : (pass f dx it (c :: r)).length =
        (if c.conv ∧ it > 3 then [{ c with conv := true }] else halve f dx c).length + (pass f dx it r).length := by
      simp [pass]
    rw [e]
    obtain ⟨h1, h2⟩ := ih
    constructor
    · split_ifs
      · simp; omega
      · rw [halve_length]; simp; omega
    · rintro ⟨d, hd, hc⟩
      rcases List.mem_cons.mp hd with rfl | hd
      · have : ¬ (d.conv = true ∧ it > 3) := by simp [hc]
        rw [if_neg this, halve_length]
        simp; omega
      · have := h2 ⟨d, hd, hc⟩
        split_ifs
        · simp; omega
        · rw [halve_length]; simp; omega

theorem not_all_conv {cells : List (Cell K)} (h : ¬ (cells.filter Cell.conv).length = cells.length) :
    ∃ c ∈ cells, c.conv = false := by
  by_contra hc
  push Not at hc
  apply h
  rw [List.filter_eq_self.mpr]
  intro c hm
  simpa using hc c hm

/-- C89 (termination).  For every integrand and every interval the integrator ends after at most `Nmax` passes. -/
theorem c89_terminates (f : ℝ → K) (a b : ℝ) (Nmax : Nat) : ∃ v, adaptive f a b Nmax (Nmax + 1) = some v := by
  have key : ∀ (fuel it : Nat) (dx : ℝ) (cells : List (Cell K)) (res : K), (∃ c ∈ cells, c.conv = false) →
      Nmax ≤ 2 * cells.length + 2 * fuel → ∃ v, loop f Nmax (fuel + 1) it dx cells res = some v := by
    intro fuel
    induction fuel with
    | zero =>
      intro it dx cells res hc hl
      have := (pass_length f (dx / 2) it cells).2 hc
      rw [loop]
      split_ifs with h1 h2 h3
      · exact ⟨_, rfl⟩
      · exact ⟨_, rfl⟩
      · exact ⟨_, rfl⟩
      · exact absurd (by omega) h3
    | succ fuel ih =>
      intro it dx cells res hc hl
      have := (pass_length f (dx / 2) it cells).2 hc
      rw [loop]
      split_ifs with h1 h2 h3
      · exact ⟨_, rfl⟩
      · exact ⟨_, rfl⟩
      · exact ⟨_, rfl⟩
      · exact ih _ _ _ _ (not_all_conv h2) (by omega)
  exact key Nmax 0 _ _ _ ⟨start f a b, by simp, rfl⟩ (by omega)

/-- A sub-interval of width `2 h` whose entries belong to the cubic integrand. -/
def Good (c : Fin 4 → K) (h : ℝ) (x : Cell K) : Prop :=
  x.x1 = x.x0 + h ∧ x.x2 = x.x0 + 2 * h ∧ x.f0 = cubic c x.x0 ∧ x.f1 = cubic c x.x1 ∧ x.f2 = cubic c x.x2 ∧
    x.res = integralCubic c x.x0 x.x2

/-- The sub-intervals lead from `a` to `b`. -/
def Chain (a b : ℝ) : List (Cell K) → Prop
  | [] => a = b
  | x :: r => x.x0 = a ∧ Chain x.x2 b r

theorem chain_append (a b : ℝ) : ∀ (l m : List (Cell K)) (d : ℝ), Chain a d l → Chain d b m → Chain a b (l ++ m) := by
  intro l
  induction l generalizing a with
  | nil => intro m d h1 h2; rw [Chain] at h1; subst h1; exact h2
  | cons x r ih => intro m d h1 h2; exact ⟨h1.1, ih _ _ _ h1.2 h2⟩

theorem chain_sum (c : Fin 4 → K) : ∀ (cells : List (Cell K)) (a b : ℝ), Chain a b cells →
    (∀ x ∈ cells, x.res = integralCubic c x.x0 x.x2) → (cells.map Cell.res).sum = integralCubic c a b := by
  intro cells
  induction cells with
  | nil => intro a b h _; rw [Chain] at h; subst h; simp [integralCubic]
  | cons x r ih =>
    intro a b h hx
    rw [List.map_cons, List.sum_cons, ih _ _ h.2 fun y hy => hx y (List.mem_cons_of_mem _ hy), hx x (by simp), h.1,
      integralCubic_add]

theorem halve_good (c : Fin 4 → K) (h : ℝ) (x : Cell K) (hx : Good c h x) :
    (∀ y ∈ halve (cubic c) (h / 2) x, Good c (h / 2) y) ∧ Chain x.x0 x.x2 (halve (cubic c) (h / 2) x) := by
  obtain ⟨e1, e2, e3, e4, e5, -⟩ := hx
  constructor
  · intro y hy
    simp only [halve, List.mem_cons, List.not_mem_nil, or_false] at hy
    rcases hy with rfl | rfl
    · refine ⟨rfl, by rw [e1]; ring, e3, rfl, e4, ?_⟩
      simp only [rule3]
      have := panel c x.x0 (h / 2)
      rw [e3, e4, e1]
      have e : x.x0 + 2 * (h / 2) = x.x0 + h := by ring
      rw [e] at this
      exact this
    · refine ⟨rfl, by simp only; rw [e1, e2]; ring, e4, rfl, e5, ?_⟩
      simp only [rule3]
      have := panel c x.x1 (h / 2)
      rw [e4, e5]
      have e : x.x1 + 2 * (h / 2) = x.x2 := by rw [e1, e2]; ring
      rw [e] at this
      exact this
  · simp [halve, Chain]

/-- The state of the loop: the sub-intervals form a chain, each carries the exact integral of its width, and those that
will be halved have the current width. -/
def Inv (c : Fin 4 → K) (a b : ℝ) (it : Nat) (dx : ℝ) (cells : List (Cell K)) : Prop :=
  Chain a b cells ∧ ∀ x ∈ cells, (∃ h, Good c h x) ∧ (x.conv = false ∨ it ≤ 3 → Good c dx x)

theorem pass_inv (c : Fin 4 → K) (it : Nat) (dx : ℝ) (b : ℝ) : ∀ (cells : List (Cell K)) (a : ℝ),
    Inv c a b it dx cells → Inv c a b (it + 1) (dx / 2) (pass (cubic c) (dx / 2) it cells) := by
  intro cells
  induction cells with
  | nil => intro a h; exact ⟨h.1, by simp [pass]⟩
  | cons x r ih =>
    intro a h
    obtain ⟨⟨hx, hchain⟩, hgood⟩ := h
    obtain ⟨g1, g2⟩ := ih x.x2 ⟨hchain, fun y hy => hgood y (List.mem_cons_of_mem _ hy)⟩
    have e : pass (cubic c) (dx / 2) it (x :: r) =
        (if x.conv ∧ it > 3 then [{ x with conv := true }] else halve (cubic c) (dx / 2) x) ++
          pass (cubic c) (dx / 2) it r := by simp [pass]
    obtain ⟨hw, hd⟩ := hgood x (by simp)
    rw [e]
    by_cases hc : x.conv = true ∧ it > 3
    · rw [if_pos hc]
      refine ⟨⟨hx, g1⟩, fun y hy => ?_⟩
      rcases List.mem_append.mp hy with hy | hy
      · rw [List.mem_singleton] at hy
        subst hy
        obtain ⟨h', hw⟩ := hw
        refine ⟨⟨h', hw⟩, fun hcc => ?_⟩
        exfalso
        rcases hcc with h1 | h1
        · simp at h1
        · omega
      · exact g2 y hy
    · rw [if_neg hc]
      have hG : Good c dx x := by
        apply hd
        by_cases hv : x.conv = true
        · right; by_contra h3; exact hc ⟨hv, by omega⟩
        · left; simpa using hv
      obtain ⟨k1, k2⟩ := halve_good c dx x hG
      refine ⟨chain_append _ _ _ _ _ (hx ▸ k2) g1, fun y hy => ?_⟩
      rcases List.mem_append.mp hy with hy | hy
      · exact ⟨⟨_, k1 y hy⟩, fun _ => k1 y hy⟩
      · exact g2 y hy

/-- C89 (exactness).  For every polynomial of degree at most three, every interval and every maximal number of points, the
adaptive integrator returns exactly the integral. -/
theorem c89_exact (c : Fin 4 → K) (a b : ℝ) (Nmax : Nat) :
    adaptive (cubic c) a b Nmax (Nmax + 1) = some (integralCubic c a b) := by
  have key : ∀ (fuel it : Nat) (dx : ℝ) (cells : List (Cell K)) (res v : K), Inv c a b it dx cells →
      loop (cubic c) Nmax fuel it dx cells res = some v → v = integralCubic c a b := by
    intro fuel
    induction fuel with
    | zero => intro it dx cells res v _ h; simp [loop] at h
    | succ fuel ih =>
      intro it dx cells res v hi h
      have hp := pass_inv c it dx b cells a hi
      have hs := chain_sum c _ a b hp.1 fun x hx => by
        obtain ⟨⟨h', hg⟩, -⟩ := hp.2 x hx
        exact hg.2.2.2.2.2
      rw [loop] at h
      split_ifs at h
      · rw [← Option.some.inj h, hs]
      · rw [← Option.some.inj h, hs]
      · rw [← Option.some.inj h, hs]
      · exact ih _ _ _ _ _ hp h
  obtain ⟨v, hv⟩ := c89_terminates (cubic c) a b Nmax
  rw [hv]
  congr 1
  refine key _ _ _ _ _ _ ?_ hv
  have hg : Good c ((b - a) / 2) (start (cubic c) a b) := by
    refine ⟨?_, ?_, rfl, rfl, rfl, ?_⟩
    · simp [start]
    · simp [start]
    · simp only [start, rule3]
      have := panel c a ((b - a) / 2)
      push_cast
      simpa using this
  refine ⟨⟨by simp [start], ?_⟩, fun x hx => ?_⟩
  · show (start (cubic c) a b).x2 = b
    simp only [start]; push_cast; ring
  · rw [List.mem_singleton] at hx
    subst hx
    exact ⟨⟨_, hg⟩, fun _ => hg⟩

/-- C89 fails as a statement about accuracy: for every integrand that vanishes at the five points
`a + k (b - a) / 4`, zero is returned, whatever the allowed number of points. -/
theorem c89_missed_refuted (f : ℝ → ℝ) (a b : ℝ) (h0 : f a = 0) (h1 : f (a + (b - a) / 4) = 0)
    (h2 : f (a + (b - a) / 2) = 0) (h3 : f (a + (b - a) / 2 + (b - a) / 4) = 0) (h4 : f b = 0) (Nmax : Nat) :
    adaptive f a b Nmax (Nmax + 1) = some 0 := by
  have e2 : a + ((2 : Nat) : ℝ) * ((b - a) / 2) = b := by push_cast; ring
  have e1 : a + ((1 : Nat) : ℝ) * ((b - a) / 2) = a + (b - a) / 2 := by push_cast; ring
  have e0 : a + ((0 : Nat) : ℝ) * ((b - a) / 2) = a := by push_cast; ring
  have hs : start f a b = ⟨a, a + (b - a) / 2, b, 0, 0, 0, 0, false⟩ := by
    simp only [start, e0, e1, e2, h0, h2, h4, rule3]
    simp
  have e4 : (b - a) / 2 / 2 = (b - a) / 4 := by ring
  have hc : closeEnough (0 + 0 - 0 : ℝ) (0 + 0 + (1 / 10 ^ 16 : ℝ) • (1 : ℝ)) (1 / 10 ^ 3) := by
    refine ⟨by norm_num, by norm_num⟩
  have hp : pass f ((b - a) / 2 / 2) 0 [start f a b] =
      [⟨a, a + (b - a) / 4, a + (b - a) / 2, 0, 0, 0, 0, true⟩,
       ⟨a + (b - a) / 2, a + (b - a) / 2 + (b - a) / 4, b, 0, 0, 0, 0, true⟩] := by
    rw [hs, e4]
    simp only [pass, List.flatMap_cons, List.flatMap_nil, Bool.false_eq_true, false_and, if_false, halve, h1, h3,
      List.append_nil]
    have : rule3 (0 : ℝ) 0 0 ((b - a) / 4) = 0 := by simp [rule3]
    rw [this]
    congr 2
    · refine (@decide_eq_true_iff _ (_)).mpr ?_
      rw [h1, h3, this]; exact hc
    · congr 1
      refine (@decide_eq_true_iff _ (_)).mpr ?_
      rw [h1, h3, this]; exact hc
  rw [adaptive, loop]
  simp only [hp]
  split_ifs with c1 c2 c3
  · simp
  · simp
  · simp
  · exact absurd rfl c2

/-- The polynomial with these five zeros has a non-vanishing square. -/
example : adaptive (fun x : ℝ => (x * (x - 1) * (x - 2) * (x - 3) * (x - 4)) ^ 2) 0 4 1000 1001 = some 0 :=
  c89_missed_refuted _ 0 4 (by norm_num) (by norm_num) (by norm_num) (by norm_num) (by norm_num) 1000

/-- `1 + 2 x + 3 x² + 4 x³` from 0 to 1, at most 100 points. -/
example : adaptive (cubic (E := ℝ) ![1, 2, 3, 4]) 0 1 100 101 = some 4 := by
  rw [c89_exact]
  simp only [integralCubic, Matrix.cons_val]
  norm_num

end

/-! ### Resolution -/

theorem makeOdd_bounds (N : Int) : N ≤ makeOdd N ∧ makeOdd N ≤ N + 1 := by
  unfold makeOdd; split_ifs <;> omega

theorem toInt_bounds {x : ℝ} (hx : 0 ≤ x) : (toInt x : ℝ) ≤ x ∧ x < toInt x + 1 := by
  unfold toInt
  rw [if_neg (not_lt.2 hx)]
  exact ⟨Int.floor_le x, Int.lt_floor_add_one x⟩

theorem toInt_neg_bounds {x : ℝ} (hx : x ≤ 0) : x ≤ (toInt x : ℝ) ∧ (toInt x : ℝ) < x + 1 := by
  unfold toInt
  rcases eq_or_lt_of_le hx with rfl | h
  · simp
  · rw [if_pos h]
    push_cast
    exact ⟨by linarith [Int.floor_le (-x)], by linarith [Int.lt_floor_add_one (-x)]⟩

section
variable {E : Type} [NormedAddCommGroup E] [NormedSpace ℝ E]

theorem share {x : ℝ} (hx : 0 ≤ x) : |((makeOdd (toInt x) : Int) : ℝ) - x| ≤ 1 := by
  obtain ⟨a, b⟩ := toInt_bounds hx
  obtain ⟨c, d⟩ := makeOdd_bounds (toInt x)
  have c' : (toInt x : ℝ) ≤ (makeOdd (toInt x) : ℝ) := by exact_mod_cast c
  have d' : (makeOdd (toInt x) : ℝ) ≤ (toInt x : ℝ) + 1 := by exact_mod_cast d
  rw [abs_le]; constructor <;> linarith

/-- C88 (resolution around one feature).  The interval is cut two below and two above the feature; the inner part gets a
fifth of the points, the outer parts get shares proportional to the distance of the feature from the ends, each rounded
to an odd number. -/
theorem c88_resolution (f : ℝ → E) (a b w : ℝ) (N : Nat) (hab : a < b) (h1 : a ≤ w) (h2 : w ≤ b) :
    ∃ Na Nw Nb : Int, Na % 2 = 1 ∧ Nw % 2 = 1 ∧ Nb % 2 = 1 ∧
      |(Na : ℝ) - N * (w - a) / (b - a)| ≤ 1 ∧ |(Nb : ℝ) - N * (b - w) / (b - a)| ≤ 1 ∧ |(Nw : ℝ) - N / 5| ≤ 1 ∧
      simpsonFeature f a b w N =
        .ok (simpsonSum f a (w - 2) Na + simpsonSum f (w - 2) (w + 2) Nw + simpsonSum f (w + 2) b Nb) := by
  have h0 : ¬ b - a = 0 := by linarith
  have p : 0 ≤ b - a := by linarith
  have n0 : (0 : ℝ) ≤ N := Nat.cast_nonneg N
  have q1 : (0 : ℝ) ≤ N * (w - a) / (b - a) := div_nonneg (mul_nonneg n0 (by linarith)) p
  have q2 : (0 : ℝ) ≤ N * (b - w) / (b - a) := div_nonneg (mul_nonneg n0 (by linarith)) p
  refine ⟨_, _, _, makeOdd_odd (toInt (N * (w - a) / (b - a))), makeOdd_odd ((N : Int).tdiv 5),
    makeOdd_odd (toInt (N * (b - w) / (b - a))), share q1, share q2, ?_, ?_⟩
  · obtain ⟨c, d⟩ := makeOdd_bounds ((N : Int).tdiv 5)
    have e : (N : Int).tdiv 5 = (N / 5 : Nat) := by
      rw [Int.tdiv_eq_ediv_of_nonneg (by omega)]; rfl
    rw [e] at c d ⊢
    have c' := (Int.cast_le (R := ℝ)).2 c
    rw [Int.cast_natCast] at c'
    have d' := (Int.cast_le (R := ℝ)).2 d
    rw [Int.cast_add, Int.cast_natCast, Int.cast_one] at d'
    have l1 : ((N / 5 : Nat) : ℝ) * 5 ≤ N := by exact_mod_cast Nat.div_mul_le_self N 5
    have l2 : (N : ℝ) < (((N / 5 : Nat) : ℝ) + 1) * 5 := by
      have : N < (N / 5 + 1) * 5 := by omega
      exact_mod_cast this
    rw [abs_le]; constructor <;> linarith
  · simp only [simpsonFeature, h0, if_false, zero_add, mul_one, Int.cast_natCast]

example : ∃ r, simpsonFeature (fun _ => (1 : ℂ)) (-10) 10 3 50 = .ok r :=
  let ⟨_, _, _, _, _, _, _, _, _, h⟩ := c88_resolution (fun _ => (1 : ℂ)) (-10) 10 3 50 (by norm_num) (by norm_num) (by norm_num)
  ⟨_, h⟩

end

/-! ### Acceptance -/

section
variable {K : Type} [NormedField K] [NormedSpace ℝ K]

/-- The sub-intervals after `n` passes. -/
noncomputable def cellsAt (f : ℝ → K) (a b : ℝ) : Nat → List (Cell K)
  | 0 => [start f a b]
  | n + 1 => pass f ((b - a) / 2 / 2 ^ (n + 1)) n (cellsAt f a b n)

/-- The sum of the contributions after `n` passes. -/
noncomputable def sumAt (f : ℝ → K) (a b : ℝ) (n : Nat) : K := ((cellsAt f a b n).map Cell.res).sum

/-- After `n` passes the integrator may stop: the last pass changed the sum by less than one part in ten thousand, or every
sub-interval has converged, or there are too many points. -/
def MayStop (f : ℝ → K) (a b : ℝ) (Nmax n : Nat) : Prop :=
  ‖sumAt f a b (n - 1) - sumAt f a b n‖ * 10 ^ 4 < ‖sumAt f a b (n - 1)‖ ∨ (∀ c ∈ cellsAt f a b n, c.conv = true) ∨
    Nmax < 2 * (cellsAt f a b n).length + 1

theorem closeEnough_iff (num den : K) (k : Nat) : closeEnough num den (1 / 10 ^ k) ↔ ‖num‖ * 10 ^ k < ‖den‖ := by
  unfold closeEnough
  have q : (0 : ℝ) < 10 ^ k := by positivity
  constructor
  · rintro ⟨h0, h1⟩
    rw [norm_div, div_lt_iff₀ (norm_pos_iff.2 h0), one_div_mul_eq_div, lt_div_iff₀ q] at h1
    exact h1
  · intro h
    have p : 0 < ‖den‖ := lt_of_le_of_lt (by positivity) h
    refine ⟨norm_pos_iff.1 p, ?_⟩
    rw [norm_div, div_lt_iff₀ p, one_div_mul_eq_div, lt_div_iff₀ q]
    exact h

theorem filter_all (l : List (Cell K)) : (l.filter Cell.conv).length = l.length ↔ ∀ c ∈ l, c.conv = true := by
  constructor
  · intro e c hc
    by_contra hn
    have := List.length_filter_lt_length_iff_exists.2 ⟨c, hc, hn⟩
    omega
  · intro h; rw [List.filter_eq_self.2 h]

theorem loop_stop (f : ℝ → K) (a b : ℝ) (Nmax : Nat) : ∀ (fuel it : Nat) (v : K),
    loop f Nmax fuel it ((b - a) / 2 / 2 ^ it) (cellsAt f a b it) (sumAt f a b it) = some v →
    ∃ n, it < n ∧ v = sumAt f a b n ∧ MayStop f a b Nmax n ∧ ∀ m, it < m → m < n → ¬ MayStop f a b Nmax m
  | 0, _, _, h => by simp [loop] at h
  | fuel + 1, it, v, h => by
    have e2 : (b - a) / 2 / 2 ^ it / 2 = (b - a) / 2 / 2 ^ (it + 1) := by rw [pow_succ, ← div_div]
    have hs : MayStop f a b Nmax (it + 1) ↔
        closeEnough (sumAt f a b it - sumAt f a b (it + 1)) (sumAt f a b it) (1 / 10 ^ 4) ∨
        ((cellsAt f a b (it + 1)).filter Cell.conv).length = (cellsAt f a b (it + 1)).length ∨
        2 * (cellsAt f a b (it + 1)).length + 1 > Nmax := by
      unfold MayStop
      rw [closeEnough_iff, filter_all]
      simp
    have first : MayStop f a b Nmax (it + 1) → v = sumAt f a b (it + 1) →
        ∃ n, it < n ∧ v = sumAt f a b n ∧ MayStop f a b Nmax n ∧ ∀ m, it < m → m < n → ¬ MayStop f a b Nmax m :=
      fun h1 h2 => ⟨it + 1, by omega, h2, h1, fun m _ _ => by omega⟩
    rw [loop, e2] at h
    simp only [show pass f ((b - a) / 2 / 2 ^ (it + 1)) it (cellsAt f a b it) = cellsAt f a b (it + 1) from rfl,
      show ((cellsAt f a b (it + 1)).map Cell.res).sum = sumAt f a b (it + 1) from rfl] at h
    split_ifs at h with h1 h2 h3
    · exact first (hs.2 (Or.inl h1)) (Option.some.inj h).symm
    · exact first (hs.2 (Or.inr (Or.inl h2))) (Option.some.inj h).symm
    · exact first (hs.2 (Or.inr (Or.inr h3))) (Option.some.inj h).symm
    · obtain ⟨n, p1, p2, p3, p4⟩ := loop_stop f a b Nmax fuel (it + 1) v h
      refine ⟨n, by omega, p2, p3, fun m m1 m2 => ?_⟩
      rcases Nat.lt_or_ge (it + 1) m with g | g
      · exact p4 m g m2
      · have : m = it + 1 := by omega
        subst this
        rw [hs]
        push Not
        exact ⟨h1, h2, not_lt.1 h3⟩

/-- C89 (acceptance).  The adaptive integrator returns the sum over the sub-intervals after the first pass that changed the
sum by less than one part in ten thousand, or after which every sub-interval has converged, or that exceeded the number of
points. -/
theorem c89_accepts (f : ℝ → K) (a b : ℝ) (Nmax fuel : Nat) (v : K) (h : adaptive f a b Nmax fuel = some v) :
    ∃ n, 0 < n ∧ v = sumAt f a b n ∧ MayStop f a b Nmax n ∧ ∀ m, 0 < m → m < n → ¬ MayStop f a b Nmax m := by
  refine loop_stop f a b Nmax fuel 0 v ?_
  rw [pow_zero, div_one, show sumAt f a b 0 = (start f a b).res by simp [sumAt, cellsAt]]
  exact h

/-- C89 (local acceptance).  A sub-interval is marked converged exactly if halving it changed its contribution by less
than one part in a thousand of the new contribution (plus `10⁻¹⁶`). -/
theorem c89_local (f : ℝ → K) (dx : ℝ) (c d : Cell K) (hd : d ∈ halve f dx c) :
    d.conv = true ↔ ‖((halve f dx c).map Cell.res).sum - c.res‖ * 10 ^ 3 <
      ‖((halve f dx c).map Cell.res).sum + (1 / 10 ^ 16 : ℝ) • (1 : K)‖ := by
  have e : ((halve f dx c).map Cell.res).sum = rule3 c.f0 (f (c.x0 + dx)) c.f1 dx + rule3 c.f1 (f (c.x1 + dx)) c.f2 dx := by
    simp [halve]
  rw [e, ← closeEnough_iff]
  simp only [halve, List.mem_cons, List.not_mem_nil, or_false] at hd
  rcases hd with rfl | rfl <;> simp

end

end Verif.Simpson
