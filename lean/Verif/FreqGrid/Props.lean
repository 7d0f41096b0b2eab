import Verif.FreqGrid.Model
import Verif.GridMap.Props
import Mathlib.Data.Nat.Log
import Mathlib.Algebra.Order.Floor.Ring

/-! C22–C26: frequency grids and look-ups. -/
namespace Verif.FreqGrid

open GridMap

/-- A grid as the code builds it: at least two points, a proper interval, a good change of variable; a
purely positive grid starts at zero. -/
structure Grid.Valid (g : Grid) : Prop where
  maps : ChangeOfVariable g.toT g.ofT
  two : 2 ≤ g.n
  lt : g.lower < g.upper
  pos : g.purelyPositive = true → g.lower = 0 ∧ g.toT 0 = 0

theorem Grid.Valid.spacing_pos {g : Grid} (h : g.Valid) : 0 < g.spacing := by
  have h1 := h.maps.toT_strictMono h.lt
  have h2 : (2:ℝ) ≤ g.n := by exact_mod_cast h.two
  exact div_pos (by linarith) (by linarith)

theorem Grid.Valid.last {g : Grid} (h : g.Valid) :
    g.toT g.lower + ((g.n : ℝ) - 1) * g.spacing = g.toT g.upper := by
  have h2 : (2:ℝ) ≤ g.n := by exact_mod_cast h.two
  unfold Grid.spacing
  have : (g.n : ℝ) - 1 ≠ 0 := by linarith
  field_simp; ring

/-- The special treatment of purely positive grids does not change the values. -/
theorem Grid.Valid.aux_eq {g : Grid} (h : g.Valid) (i : Nat) :
    g.aux i = g.toT g.lower + (i : ℝ) * g.spacing := by
  unfold Grid.aux
  split_ifs with hc
  · obtain ⟨h1, h2⟩ := h.pos hc.1
    rw [hc.2, h1, h2]; simp
  · rfl

theorem Grid.Valid.freq_eq {g : Grid} (h : g.Valid) (i : Nat) : g.freq i = g.ofT (g.aux i) := by
  unfold Grid.freq
  split_ifs with hc
  · obtain ⟨h1, h2⟩ := h.pos hc.1
    rw [h.aux_eq, hc.2, h1, h2]
    simp only [Nat.cast_zero, zero_mul, add_zero]
    conv_lhs => rw [← h.maps.back 0, h2]
  · rw [h.aux_eq]

theorem Grid.Valid.aux_bounds {g : Grid} (h : g.Valid) {i : Nat} (hi : i < g.n) :
    g.toT g.lower ≤ g.aux i ∧ g.aux i ≤ g.toT g.upper := by
  rw [h.aux_eq, ← h.last]
  have hs := h.spacing_pos
  have hi' : (i:ℝ) ≤ (g.n:ℝ) - 1 := by
    have : (i:ℝ) + 1 ≤ g.n := by exact_mod_cast hi
    linarith
  have hi0 : (0:ℝ) ≤ i := Nat.cast_nonneg i
  constructor
  · have := mul_nonneg hi0 hs.le; linarith
  · have := mul_le_mul_of_nonneg_right hi' hs.le; linarith

/-- Grid points are mapped back to the auxiliary grid. -/
theorem Grid.Valid.toT_freq {g : Grid} (h : g.Valid) {i : Nat} (hi : i < g.n) :
    g.toT (g.freq i) = g.aux i := by
  rw [h.freq_eq]
  obtain ⟨a, b⟩ := h.aux_bounds hi
  exact h.maps.forth _ (lt_of_lt_of_le (h.maps.range _).1 a) (lt_of_le_of_lt b (h.maps.range _).2)

/-- C22: the grid starts at the lower and ends at the upper limit and is strictly increasing, as is the
auxiliary grid. -/
theorem c22_span_increasing {g : Grid} (h : g.Valid) :
    g.freq 0 = g.lower ∧ g.freq (g.n - 1) = g.upper ∧
      (∀ i j, i < j → j < g.n → g.freq i < g.freq j ∧ g.aux i < g.aux j) := by
  have hs := h.spacing_pos
  refine ⟨?_, ?_, ?_⟩
  · rw [h.freq_eq, h.aux_eq]; simp [h.maps.back]
  · rw [h.freq_eq, h.aux_eq, Nat.cast_sub (by have := h.two; omega), Nat.cast_one, h.last, h.maps.back]
  · intro i j hij hj
    have haux : g.aux i < g.aux j := by
      rw [h.aux_eq, h.aux_eq]
      have : (i:ℝ) < j := by exact_mod_cast hij
      have := mul_lt_mul_of_pos_right this hs; linarith
    refine ⟨?_, haux⟩
    by_contra hc
    push Not at hc
    have := h.maps.toT_strictMono.monotone hc
    rw [h.toT_freq hj, h.toT_freq (hij.trans hj)] at this
    linarith

/-- C22: if the box is symmetric about the centre and the map is odd about it, so is the grid. -/
theorem c22_symmetric {g : Grid} (h : g.Valid) (hp : g.purelyPositive = false) (c : ℝ)
    (hbox : g.lower - c = -(g.upper - c)) (hodd : ∀ x, g.toT (c - x) = - g.toT (c + x))
    {i : Nat} (hi : i < g.n) : g.freq (g.n - 1 - i) - c = -(g.freq i - c) := by
  have hlow : g.toT g.lower = - g.toT g.upper := by
    have h1 := hodd (g.upper - c)
    rw [show c - (g.upper - c) = g.lower by linarith, show c + (g.upper - c) = g.upper by ring] at h1
    exact h1
  have haux : g.aux (g.n - 1 - i) = - g.aux i := by
    have hl := h.last
    rw [h.aux_eq, h.aux_eq, Nat.cast_sub (by omega), Nat.cast_sub (by have := h.two; omega)]
    push_cast
    have : ((g.n:ℝ) - 1 - i) * g.spacing = ((g.n:ℝ) - 1) * g.spacing - i * g.spacing := by ring
    linarith
  have h1 : g.toT (g.freq (g.n - 1 - i)) = g.toT (c - (g.freq i - c)) := by
    rw [hodd, show c + (g.freq i - c) = g.freq i by ring, h.toT_freq (by have := h.two; omega), haux,
      h.toT_freq hi]
  have := h.maps.toT_strictMono.injective h1
  rw [this]; ring

/-- The default grid of the real-frequency formalism: `n` points, scale `W`, half-width `a`, centre `c`. -/
noncomputable def keldyshGrid (W c a : ℝ) (n : Nat) : Grid :=
  ⟨v2 W c, v2Inv W c, n, c - a, c + a, false⟩

theorem keldyshGrid_valid {W a : ℝ} (hW : 0 < W) (ha : 0 < a) (c : ℝ) {n : Nat} (hn : 2 ≤ n) :
    (keldyshGrid W c a n).Valid :=
  ⟨c21_v2 hW c, hn, by simp only [keldyshGrid]; linarith, by simp [keldyshGrid]⟩

/-- C22 for the default grid. -/
theorem c22_default {W a : ℝ} (hW : 0 < W) (ha : 0 < a) (c : ℝ) {n : Nat} (hn : 2 ≤ n) :
    let g := keldyshGrid W c a n
    g.freq 0 = c - a ∧ g.freq (n - 1) = c + a ∧ (∀ i j, i < j → j < n → g.freq i < g.freq j) ∧
      ∀ i, i < n → g.freq (n - 1 - i) - c = -(g.freq i - c) := by
  intro g
  have hv := keldyshGrid_valid hW ha c hn
  obtain ⟨h1, h2, h3⟩ := c22_span_increasing hv
  refine ⟨h1, h2, fun i j hij hj => (h3 i j hij hj).1, fun i hi => ?_⟩
  exact c22_symmetric hv rfl c (by simp only [keldyshGrid]; ring) (fun x => (c21_odd W c x).2.1) hi

/-! ### Look-up -/

theorem trunc_nonneg {x : ℝ} (h : 0 ≤ x) : trunc x = ⌊x⌋ := by simp [trunc, h]

/-- Position of a frequency on the auxiliary grid, in units of the spacing. -/
noncomputable def Grid.pos (g : Grid) (w : ℝ) : ℝ := (g.toT w - g.toT g.lower) / g.spacing

theorem Grid.Valid.pos_bounds {g : Grid} (h : g.Valid) {w : ℝ} (h1 : g.lower ≤ w) (h2 : w ≤ g.upper) :
    0 ≤ g.pos w ∧ g.pos w ≤ (g.n : ℝ) - 1 := by
  have hs := h.spacing_pos
  have m1 := h.maps.toT_strictMono.monotone h1
  have m2 := h.maps.toT_strictMono.monotone h2
  unfold Grid.pos
  constructor
  · exact div_nonneg (by linarith) hs.le
  · rw [div_le_iff₀ hs]; have := h.last; linarith

/-- Cell of a frequency below the upper limit. -/
theorem Grid.Valid.cell {g : Grid} (h : g.Valid) {w : ℝ} (h1 : g.lower ≤ w) (h2 : w < g.upper) :
    ∃ i : Nat, trunc (g.pos w) = i ∧ i + 1 < g.n ∧ g.freq i ≤ w ∧ w < g.freq (i + 1) := by
  have hs := h.spacing_pos
  obtain ⟨p0, p1⟩ := h.pos_bounds h1 h2.le
  have plt : g.pos w < (g.n : ℝ) - 1 := by
    unfold Grid.pos
    rw [div_lt_iff₀ hs]
    have := h.last
    have := h.maps.toT_strictMono h2
    linarith
  refine ⟨(⌊g.pos w⌋).toNat, ?_, ?_, ?_, ?_⟩
  · rw [trunc_nonneg p0, Int.toNat_of_nonneg (Int.floor_nonneg.mpr p0)]
  all_goals
    have hf0 : 0 ≤ ⌊g.pos w⌋ := Int.floor_nonneg.mpr p0
    have hcast : (((⌊g.pos w⌋).toNat : ℕ) : ℝ) = (⌊g.pos w⌋ : ℝ) := by
      exact_mod_cast congrArg (fun z : ℤ => (z : ℝ)) (Int.toNat_of_nonneg hf0)
    have hle := Int.floor_le (g.pos w)
    have hlt := Int.lt_floor_add_one (g.pos w)
    have hub : (⌊g.pos w⌋).toNat + 1 < g.n := by
      have : (((⌊g.pos w⌋).toNat : ℕ) : ℝ) + 1 < g.n := by rw [hcast]; linarith
      exact_mod_cast this
  · exact hub
  · by_contra hc
    push Not at hc
    have := h.maps.toT_strictMono hc
    rw [h.toT_freq (by omega), h.aux_eq, hcast] at this
    have h3 : g.toT w = g.toT g.lower + g.pos w * g.spacing := by
      unfold Grid.pos; field_simp; ring
    have := mul_le_mul_of_nonneg_right hle hs.le
    linarith
  · by_contra hc
    push Not at hc
    have := h.maps.toT_strictMono.monotone hc
    rw [h.toT_freq hub, h.aux_eq, Nat.cast_add, hcast] at this
    have h3 : g.toT w = g.toT g.lower + g.pos w * g.spacing := by
      unfold Grid.pos; field_simp; ring
    have := mul_lt_mul_of_pos_right hlt hs
    push_cast at *
    linarith

theorem Grid.read_ok {g : Grid} {i : Nat} (hi : i < g.n) : g.read (i : Int) = .ok (g.freq i) := by
  simp [Grid.read, hi]

theorem Grid.clamp_cell {g : Grid} {i : Nat} (hi : i + 1 < g.n) : g.clamp (i : Int) = i := by
  unfold Grid.clamp; omega

/-- C23 and C24, all frequencies of the box except its upper edge: the look-up reads only existing grid
points and returns the cell that contains the frequency. -/
theorem c23_cell_partial {g : Grid} (h : g.Valid) {w : ℝ} (h1 : g.lower ≤ w) (h2 : w < g.upper) :
    ∃ i : Nat, g.index w = .ok (i : Int) ∧ g.index2 w = .ok (g.toT w, (i : Int)) ∧ g.indexLinear w = i ∧
      i + 1 < g.n ∧ g.freq i ≤ w ∧ w < g.freq (i + 1) := by
  obtain ⟨i, e, hi, a, b⟩ := h.cell h1 h2
  have e' : trunc ((g.toT w - g.toT g.lower) / g.spacing) = (i : Int) := e
  have r1 : g.read ((i : Int) + 1) = .ok (g.freq (i + 1)) := by
    have := Grid.read_ok (g := g) hi; push_cast at this; exact this
  have r0 : g.read (i : Int) = .ok (g.freq i) := Grid.read_ok (by omega)
  have n1 : ¬ g.freq (i + 1) < w := by linarith
  have n0 : ¬ g.freq i > w := by linarith
  refine ⟨i, ?_, ?_, ?_, hi, a, b⟩
  · simp only [Grid.index, e', r1]
    show Except.ok (g.clamp (if g.freq (i + 1) < w then (i:Int) + 1 else i)) = _
    rw [if_neg n1, Grid.clamp_cell hi]
  · have c1 : g.freq i - w ≤ 1 / 10^5 * |w| := by
      have : (0:ℝ) ≤ 1 / 10^5 * |w| := by positivity
      linarith
    have c2 : w - g.freq (i + 1) < 1 / 10^5 := by
      have : (0:ℝ) < 1 / 10^5 := by norm_num
      linarith
    have d1 : ¬ ¬ (g.freq i - w ≤ 1 / 10^5 * |w| ∨ (i:Int) = 0) := fun h => h (Or.inl c1)
    have d2 : ¬ ¬ (w - g.freq (i + 1) < 1 / 10^5 ∨ (i:Int) = (g.n:Int) - 2) := fun h => h (Or.inl c2)
    simp only [Grid.index2, e', r1, r0, n1, n0, Grid.clamp_cell hi, bind, Except.bind, pure, Except.pure,
      false_and, if_false, if_neg d1, if_neg d2]
  · simp only [Grid.indexLinear, e', Grid.clamp_cell hi]

/-- At the upper edge the truncated position is the last grid point. -/
theorem Grid.Valid.upper_pos {g : Grid} (h : g.Valid) :
    trunc ((g.toT g.upper - g.toT g.lower) / g.spacing) = (g.n : Int) - 1 := by
  have hs := h.spacing_pos
  have : (g.toT g.upper - g.toT g.lower) / g.spacing = (((g.n : Int) - 1 : Int) : ℝ) := by
    rw [← h.last]; push_cast; field_simp; ring
  have h2 := h.two
  rw [this, trunc_nonneg (by exact_mod_cast (by omega : (0:Int) ≤ (g.n:Int) - 1)), Int.floor_intCast]

/-- C24 is false: looking up the upper edge of the box reads one entry beyond the grid, for every grid. -/
theorem c24_upper_edge_refuted {g : Grid} (h : g.Valid) :
    g.index g.upper = .error .undefined ∧ g.index2 g.upper = .error .undefined := by
  have r : g.read ((g.n : Int) - 1 + 1) = .error .undefined := by
    simp [Grid.read]
  constructor
  · simp only [Grid.index, h.upper_pos, r]; rfl
  · simp only [Grid.index2, h.upper_pos, r]; rfl

/-- C24, what holds: no access outside the grid below the upper edge. -/
theorem c24_inside_partial {g : Grid} (h : g.Valid) {w : ℝ} (h1 : g.lower ≤ w) (h2 : w < g.upper) :
    g.index w ≠ .error .undefined ∧ g.index2 w ≠ .error .undefined := by
  obtain ⟨i, e1, e2, _⟩ := c23_cell_partial h h1 h2
  rw [e1, e2]; simp

/-- C23 is false at the upper edge, on every grid: the last frequency of the box gets no index. -/
theorem c23_upper_edge_refuted {g : Grid} (h : g.Valid) :
    ¬ ∀ w, g.lower ≤ w → w ≤ g.upper → ∃ i : Nat, g.index w = .ok (i : Int) ∧ i + 1 < g.n ∧ g.freq i ≤ w ∧ w ≤ g.freq (i + 1) := fun H => by
  obtain ⟨i, e, -⟩ := H g.upper h.lt.le le_rfl
  rw [(c24_upper_edge_refuted h).1] at e
  cases e

/-- C23 at the upper edge with the linear variant (no array access): the last cell is returned. -/
theorem c23_upper_edge_linear {g : Grid} (h : g.Valid) :
    g.indexLinear g.upper = (g.n : Int) - 2 ∧ g.freq (g.n - 2) ≤ g.upper ∧ g.upper ≤ g.freq (g.n - 1) := by
  have h2 := h.two
  obtain ⟨_, b, c⟩ := c22_span_increasing h
  refine ⟨?_, ?_, b.ge⟩
  · simp only [Grid.indexLinear, h.upper_pos, Grid.clamp]; omega
  · rw [← b]; exact (c (g.n - 2) (g.n - 1) (by omega) (by omega)).1.le

/-- Non-trivial instance: five points on `[-1, 1]` with scale one. -/
example : (keldyshGrid 1 0 1 5).Valid := keldyshGrid_valid one_pos one_pos 0 (by norm_num)

/-! ### C25 -/

/-- C25 for a centred grid: the test accepts exactly the open box enlarged by the tolerance. -/
theorem c25_centred_partial (a tol w : ℝ) :
    inBox a 0 tol w ↔ -a - tol < w ∧ w < a + tol := by
  simp only [inBox, sub_zero, abs_lt]
  constructor
  · rintro ⟨h1, h2⟩; exact ⟨by linarith, h2⟩
  · rintro ⟨h1, h2⟩; exact ⟨by linarith, h2⟩

/-- C25 is false: after centring a grid at a positive frequency the test accepts frequencies outside the
grid (by the amount of the shift on both sides), and after centring at a negative one it rejects frequencies
inside. -/
theorem c25_shifted_refuted {a c tol : ℝ} (ha : 0 < a) (htol : 0 ≤ tol) (hc : 0 < c) :
    (∃ w, (setCenter a (-a) c).1 < w ∧ inBox (setCenter a (-a) c).1 c tol w) ∧
    (tol < c → ∃ w, (setCenter a (-a) (-c)).2 ≤ w ∧ w ≤ (setCenter a (-a) (-c)).1 ∧
      ¬ inBox (setCenter a (-a) (-c)).1 (-c) tol w) := by
  constructor
  · refine ⟨(setCenter a (-a) c).1 + c / 2, by linarith, ?_⟩
    simp only [setCenter, inBox]
    rw [abs_of_pos (by linarith)]; linarith
  · intro ht
    refine ⟨(setCenter a (-a) (-c)).1, ?_, le_rfl, ?_⟩
    · simp only [setCenter]; linarith
    · simp only [setCenter, inBox, not_lt]
      refine le_trans ?_ (le_abs_self _)
      linarith

/-- C25: for a positive shift the accepted interval is exactly `(c - (a + c) - tol, c + (a + c) + tol)`. -/
theorem c25_accepted_interval {a c tol w : ℝ} :
    inBox (setCenter a (-a) c).1 c tol w ↔ -a - tol < w ∧ w < a + 2 * c + tol := by
  simp only [setCenter, inBox, abs_lt]
  constructor
  · rintro ⟨h1, h2⟩; constructor <;> linarith
  · rintro ⟨h1, h2⟩; constructor <;> linarith

/-- C25: centring moves the box without changing its width: the middle of the new limits is the requested
centre. -/
theorem c25_centre (u l c : ℝ) :
    ((setCenter u l c).1 + (setCenter u l c).2) / 2 = c ∧ (setCenter u l c).1 - (setCenter u l c).2 = u - l := by
  constructor <;> simp only [setCenter] <;> ring

/-! ### C26 -/

/-- C26: the search ends at adjacent positions that bracket the query, if the outer positions do; the table
is not required to be sorted. -/
theorem locate_bracket {K : Type} [LinearOrder K] (xx : Nat → K) (x : K) (jl ju : Nat) (hlt : jl < ju)
    (hl : xx jl ≤ x) (hu : x < xx ju) :
    let j := (locate xx x jl ju).1
    jl ≤ j ∧ j < ju ∧ xx j ≤ x ∧ x < xx (j + 1) := by
  fun_induction locate xx x jl ju with
  | case1 jl ju h jm r ih1 ih2 =>
    simp only [r]
    split_ifs with hm
    · obtain ⟨a, b, c, d⟩ := ih1 (by omega) hm hu
      exact ⟨by omega, b, c, d⟩
    · obtain ⟨a, b, c, d⟩ := ih2 (by omega) hl (not_le.mp hm)
      exact ⟨a, by omega, c, d⟩
  | case2 jl ju h =>
    have : ju = jl + 1 := by omega
    subst this
    exact ⟨le_rfl, by omega, hl, hu⟩

/-- The search halves the interval: the number of iterations is at most the binary logarithm (rounded up) of
its length. -/
theorem locate_steps {K : Type} [LinearOrder K] (xx : Nat → K) (x : K) (jl ju : Nat) :
    (locate xx x jl ju).2 ≤ Nat.clog 2 (ju - jl) := by
  fun_induction locate xx x jl ju with
  | case1 jl ju h jm r ih1 ih2 =>
    simp only [r]
    rw [Nat.clog_of_two_le (by norm_num) (by omega)]
    split_ifs with hm
    · refine Nat.add_le_add_right (ih1.trans (Nat.clog_mono_right 2 ?_)) 1
      omega
    · refine Nat.add_le_add_right (ih2.trans (Nat.clog_mono_right 2 ?_)) 1
      omega
  | case2 jl ju h => exact Nat.zero_le _

/-- The search reads the table only strictly between the outer positions. -/
theorem locate_congr {K : Type} [LinearOrder K] (xx yy : Nat → K) (x : K) (jl ju : Nat)
    (h : ∀ i, jl < i → i < ju → xx i = yy i) : locate xx x jl ju = locate yy x jl ju := by
  fun_induction locate xx x jl ju with
  | case1 jl ju hgt jm r ih1 ih2 =>
    rw [locate.eq_def yy]
    have hm : xx jm = yy jm := h jm (by omega) (by omega)
    simp only [hgt, if_true, r, hm]
    have e1 := ih1 (fun i a b => h i (by omega) b)
    have e2 := ih2 (fun i a b => h i a (by omega))
    rw [e1, e2]
    rfl
  | case2 jl ju hgt =>
    rw [locate.eq_def yy]; simp [hgt]

/-- C26: for a strictly increasing table with `n ≥ 2` entries and a query inside it, the search over the
whole table returns the unique interval that contains the query, after at most `⌈log2 (n-1)⌉` halvings, and
reads only existing entries. -/
theorem c26_locate {K : Type} [LinearOrder K] (xx : Nat → K) (n : Nat) (hn : 2 ≤ n)
    (hmono : ∀ i j, i < j → j < n → xx i < xx j) (x : K) (hl : xx 0 ≤ x) (hu : x < xx (n - 1)) :
    let r := locate xx x 0 (n - 1)
    r.1 + 1 < n ∧ xx r.1 ≤ x ∧ x < xx (r.1 + 1) ∧
      (∀ i, i + 1 < n → xx i ≤ x → x < xx (i + 1) → i = r.1) ∧ r.2 ≤ Nat.clog 2 (n - 1) ∧
      ∀ yy : Nat → K, (∀ i < n, yy i = xx i) → locate yy x 0 (n - 1) = r := by
  intro r
  have hb := locate_bracket xx x 0 (n - 1) (by omega) hl hu
  change 0 ≤ r.1 ∧ r.1 < n - 1 ∧ xx r.1 ≤ x ∧ x < xx (r.1 + 1) at hb
  obtain ⟨_, b, c, d⟩ := hb
  refine ⟨by omega, c, d, ?_, by simpa using locate_steps xx x 0 (n - 1), ?_⟩
  · intro i hi h1 h2
    by_contra hne
    rcases Nat.lt_or_gt_of_ne hne with h | h
    · have : xx (i + 1) ≤ xx r.1 := by
        rcases Nat.eq_or_lt_of_le (show i + 1 ≤ r.1 by omega) with e | h'
        · rw [e]
        · exact (hmono _ _ h' (by omega)).le
      exact absurd (lt_of_lt_of_le h2 (this.trans c)) (lt_irrefl _)
    · have : xx (r.1 + 1) ≤ xx i := by
        rcases Nat.eq_or_lt_of_le (show r.1 + 1 ≤ i by omega) with e | h'
        · rw [e]
        · exact (hmono _ _ h' (by omega)).le
      exact absurd (lt_of_lt_of_le d (this.trans h1)) (lt_irrefl _)
  · intro yy hy
    exact locate_congr yy xx x 0 (n - 1) (fun i _ hi => hy i (by omega))

/-- C26: queries at or beyond the ends of the table are assigned to the first and last interval. -/
theorem c26_outside {K : Type} [LinearOrder K] (xx : Nat → K) (n : Nat) (hn : 2 ≤ n)
    (hmono : ∀ i j, i < j → j < n → xx i < xx j) (x : K) :
    (x < xx 0 → (locate xx x 0 (n - 1)).1 = 0) ∧
    (xx (n - 1) ≤ x → (locate xx x 0 (n - 1)).1 = n - 2) := by
  have low : ∀ ju, ju < n → x < xx 0 → (locate xx x 0 ju).1 = 0 := by
    intro ju
    induction ju using Nat.strong_induction_on with
    | _ ju ih =>
      intro hju hx
      rw [locate]
      by_cases h : ju - 0 > 1
      · have hm : ¬ xx ((ju + 0) / 2) ≤ x := by
          have := hmono 0 ((ju + 0)/2) (by omega) (by omega)
          exact not_le.mpr (hx.trans this)
        simp only [h, if_true, hm, if_false]
        exact ih _ (by omega) (by omega) hx
      · simp only [h, if_false]
  have high : ∀ d jl, n - 1 - jl = d → jl < n - 1 → xx (n - 1) ≤ x → (locate xx x jl (n - 1)).1 = n - 2 := by
    intro d
    induction d using Nat.strong_induction_on with
    | _ d ih =>
      intro jl hd hjl hx
      rw [locate]
      by_cases h : n - 1 - jl > 1
      · have hm : xx ((n - 1 + jl) / 2) ≤ x :=
          (hmono _ (n - 1) (by omega) (by omega)).le.trans hx
        simp only [h, if_true, hm]
        exact ih _ (by omega) _ rfl (by omega) hx
      · simp only [h, if_false]; omega
  exact ⟨fun h => low _ (by omega) h, fun h => high _ 0 rfl (by omega) h⟩

/-- Non-trivial instance. -/
example : locate (fun i => (i : Int) * i) 10 0 8 = (3, 3) := by decide +kernel

end Verif.FreqGrid
