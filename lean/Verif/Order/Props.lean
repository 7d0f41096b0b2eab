import Verif.Order.Lemmas
import Verif.Accuracy.Props
import Verif.ODE.Props
import Mathlib.Analysis.SpecialFunctions.ExpDeriv
import Mathlib.Analysis.Complex.ExponentialBounds

/-! # C173: the computed flow has the order of its scheme -/
namespace Verif.Order
open Filter Topology Verif.ODE Verif.Accuracy

variable {E : Type} [NormedAddCommGroup E] [NormedSpace ℝ E] {J I : Set ℝ} {p : FlowParam ℝ} {f : E → ℝ → E} {y : ℝ → E}

theorem mem_orders {T : Tableau} {q : ℕ} (h : (T, q) ∈ orders) : Fit T ∧ Conditions T T.bHigh q ∧ q ≤ 5 ∧ 1 ≤ q := by
  simp only [orders, List.mem_cons, Prod.mk.injEq, List.not_mem_nil, or_false] at h
  rcases h with ⟨rfl, rfl⟩ | ⟨rfl, rfl⟩ | ⟨rfl, rfl⟩
  · exact ⟨fit (by simp [tableaux]), conditions_high.1, by omega, by omega⟩
  · exact ⟨fit (by simp [tableaux]), conditions_high.2.1, by omega, by omega⟩
  · exact ⟨fit (by simp [tableaux]), conditions_high.2.2, by omega, by omega⟩

/-- The flow with its variable. -/
noncomputable def curve (p : FlowParam ℝ) (y : ℝ → E) (t : ℝ) : ℝ × E := (t, y (p.lam t))

theorem curve_flow (S : Smooth J p f y) {t : ℝ} (ht : t ∈ J) : HasDerivAt (curve p y) (field p f (curve p y t)) t :=
  (hasDerivAt_id' t).prodMk (HasDerivAt.scomp t (S.flow t ht) (S.param t ht))

theorem field_smooth (S : Smooth J p f y) {t : ℝ} (ht : t ∈ J) : ContDiffAt ℝ 6 (field p f) (curve p y t) := by
  have d : ContDiffAt ℝ 6 p.dlam t := S.speed.contDiffAt (S.isOpen.mem_nhds ht)
  have l : ContDiffOn ℝ 6 p.lam J := by
    have : ContDiffOn ℝ (6 + 1) p.lam J := (contDiffOn_succ_iff_deriv_of_isOpen S.isOpen).2
      ⟨fun t ht => (S.param t ht).differentiableAt.differentiableWithinAt, by simp, S.speed.congr fun t ht => (S.param t ht).deriv⟩
    exact this.of_le (by norm_num)
  have l' : ContDiffAt ℝ 6 p.lam t := l.contDiffAt (S.isOpen.mem_nhds ht)
  have d1 : ContDiffAt ℝ 6 (fun w : ℝ × E => p.dlam w.1) (curve p y t) := ContDiffAt.comp (g := p.dlam) _ d contDiffAt_fst
  have l1 : ContDiffAt ℝ 6 (fun w : ℝ × E => p.lam w.1) (curve p y t) := ContDiffAt.comp (g := p.lam) _ l' contDiffAt_fst
  have f1 : ContDiffAt ℝ 6 (fun w : ℝ × E => f w.2 (p.lam w.1)) (curve p y t) :=
    ContDiffAt.comp (g := fun z : E × ℝ => f z.1 z.2) (f := fun w : ℝ × E => (w.2, p.lam w.1)) _ (S.rhs t ht) (contDiffAt_snd.prodMk l1)
  exact contDiffAt_const.prodMk (d1.smul f1)

omit [NormedSpace ℝ E] in
theorem norm_curve (t : ℝ) (x : E) : ‖((t, x) : ℝ × E) - curve p y t‖ = ‖x - y (p.lam t)‖ := by
  rw [curve, Prod.mk_sub_mk, sub_self, Prod.norm_def, norm_zero]
  exact max_eq_right (norm_nonneg _)

/-- One step started on the flow, and a second one started nearby. -/
theorem steps (S : Smooth J p f y) {T : Tableau} (H : Fit T) {b : List ℚ} {q : ℕ} (hC : Conditions T b q) (hq : q ≤ 5) (hI : IsCompact I) (hIJ : I ⊆ J) :
    ∃ C, 0 ≤ C ∧ ∃ r > 0, ∀ t ∈ I, ∀ h, |h| ≤ r →
      ‖combine b (y (p.lam t)) h (slopes T p f (y (p.lam t)) (f (y (p.lam t)) (p.lam t)) t h) - y (p.lam (t + h))‖ ≤ C * |h| ^ (q + 1) ∧
      ∀ x, ‖x - y (p.lam t)‖ ≤ r → ‖combine b x h (slopes T p f x (f x (p.lam t)) t h) - y (p.lam (t + h))‖ ≤
        (1 + C * |h|) * ‖x - y (p.lam t)‖ + C * |h| ^ (q + 1) := by
  obtain ⟨C, C0, r, r0, h⟩ := uniform S.isOpen (fun t ht => curve_flow S ht) (fun t ht => field_smooth S ht) hC hq hI hIJ
  refine ⟨C, C0, r, r0, fun t ht h' hh => ?_⟩
  obtain ⟨a, l⟩ := h t ht h' hh
  have a' : ‖(after T b (field p f) (t, y (p.lam t)) h').2 - y (p.lam (t + h'))‖ ≤ C * |h'| ^ (q + 1) := (norm_snd_le _).trans a
  refine ⟨by rw [combine_after H]; exact a', fun x hx => ?_⟩
  have l' := l (t, x) (by rwa [norm_curve])
  rw [norm_curve] at l'
  have l2 : ‖(after T b (field p f) (t, x) h').2 - (after T b (field p f) (t, y (p.lam t)) h').2‖ ≤ (1 + C * |h'|) * ‖x - y (p.lam t)‖ := (norm_snd_le _).trans l'
  rw [combine_after H]
  have := norm_add_le ((after T b (field p f) (t, x) h').2 - (after T b (field p f) (t, y (p.lam t)) h').2) ((after T b (field p f) (t, y (p.lam t)) h').2 - y (p.lam (t + h')))
  rw [sub_add_sub_cancel] at this
  linarith

/-- **C173** (one step). If the right-hand side and the parametrisation are six times continuously differentiable, a step of
size `h` from a point of the flow differs from the flow by at most a constant times the sixth power of `h` for Cash and Karp,
the fifth for RK4 and the fourth for Bogacki and Shampine, uniformly on compact parts of the flow. -/
theorem c173_step (S : Smooth J p f y) {T : Tableau} {q : ℕ} (hT : (T, q) ∈ orders) (hI : IsCompact I) (hIJ : I ⊆ J) :
    ∃ C, ∃ r > 0, ∀ t ∈ I, ∀ h, |h| ≤ r → ‖step T p f (y (p.lam t)) t h - y (p.lam (t + h))‖ ≤ C * |h| ^ (q + 1) := by
  obtain ⟨H, hC, hq, -⟩ := mem_orders hT
  obtain ⟨C, -, r, r0, h⟩ := steps S H hC hq hI hIJ
  exact ⟨C, r, r0, fun t ht h' hh => (h t ht h' hh).1⟩

/-- **C173** (flow). The computed flow differs from the flow by at most a constant times the sum of the error of the initial
state, the changes made after the steps, and the fifth, fourth or third power of the largest step, however the steps are
chosen, as long as they are short enough and their total length is bounded. -/
theorem c173_flow (S : Smooth J p f y) {T : Tableau} {q : ℕ} (hT : (T, q) ∈ orders) (hI : IsCompact I) (hIJ : I ⊆ J) {R Len : ℝ} (R0 : 0 < R) (L0 : 0 ≤ Len) :
    ∃ C, ∃ κ > 0, ∀ (post : ℕ → E → E) (η δ t : ℝ) (hs : List ℝ) (x : E), 0 ≤ η →
      (∀ n x, (∃ t ∈ I, ‖x - y (p.lam t)‖ ≤ R) → ‖post n x - x‖ ≤ η) → hs.length * η ≤ κ → Inside I t hs → (∀ h ∈ hs, |h| ≤ δ) → 0 ≤ δ → δ ≤ κ →
      length hs ≤ Len → ‖x - y (p.lam t)‖ ≤ κ →
      ‖walk T p f post 0 t x hs - y (p.lam (t + hs.sum))‖ ≤ C * (‖x - y (p.lam t)‖ + δ ^ q + hs.length * η) := by
  obtain ⟨H, hC, hq, q1⟩ := mem_orders hT
  obtain ⟨C, C0, r, r0, st⟩ := steps S H hC hq hI hIJ
  set X := Real.exp (C * Len) with hX
  have X0 : 1 ≤ X := Real.one_le_exp (by positivity)
  set m := min r R with hm
  have m0 : 0 < m := lt_min r0 R0
  set κ := min (min 1 m) (m / (X * (2 + C * Len))) with hκ
  have d0 : 0 < X * (2 + C * Len) := by positivity
  have κ0 : 0 < κ := lt_min (lt_min one_pos m0) (by positivity)
  have k1 : κ ≤ 1 := (min_le_left _ _).trans (min_le_left _ _)
  have k2 : κ ≤ m := (min_le_left _ _).trans (min_le_right _ _)
  have k3 : κ * (X * (2 + C * Len)) ≤ m := (le_div_iff₀ d0).1 (min_le_right _ _)
  refine ⟨X * (1 + C * Len), κ, κ0, fun post η δ t hs x η0 hpost hη hin hsm δ0 hδ hlen hx => ?_⟩
  have δq : δ ^ q ≤ κ := by
    calc δ ^ q ≤ δ ^ 1 := pow_le_pow_of_le_one δ0 (hδ.trans k1) q1
      _ ≤ κ := by rwa [pow_one]
  have δq0 : 0 ≤ δ ^ q := by positivity
  have key : ∀ (hs : List ℝ) (n : ℕ) (t : ℝ) (x : E), Inside I t hs → (∀ h ∈ hs, |h| ≤ δ) → bound (C / 2) (C * δ ^ q / 2) 0 η ‖x - y (p.lam t)‖ hs ≤ m →
      ‖walk T p f post n t x hs - y (p.lam (t + hs.sum))‖ ≤ bound (C / 2) (C * δ ^ q / 2) 0 η ‖x - y (p.lam t)‖ hs := by
    intro hs
    induction hs with
    | nil => intro n t x _ _ _; simp [walk, bound, length]
    | cons h hs ih =>
      intro n t x hin hsm hb
      set e := ‖x - y (p.lam t)‖ with he
      have e0 : 0 ≤ e := norm_nonneg _
      have C2 : 0 ≤ C / 2 := by positivity
      have ρ0 : 0 ≤ C * δ ^ q / 2 := by positivity
      have em := (bound_mono C2 ρ0 le_rfl η0 e0 (h :: hs)).trans hb
      have hd := hsm h List.mem_cons_self
      have hh0 := abs_nonneg h
      have hr : |h| ≤ r := hd.trans (hδ.trans (k2.trans (min_le_left _ _)))
      have s := (st t hin.1 h hr).2 x (em.trans (min_le_left _ _))
      have pw : |h| ^ (q + 1) ≤ |h| * δ ^ q := by
        rw [pow_succ, mul_comm]
        exact mul_le_mul_of_nonneg_left (pow_le_pow_left₀ hh0 hd q) hh0
      have s' : ‖step T p f x t h - y (p.lam (t + h))‖ ≤ e + 2 * (C / 2) * |h| * e + |h| * (4 * 0 + 2 * (C * δ ^ q / 2)) := by
        have := mul_le_mul_of_nonneg_left pw C0
        refine (show ‖step T p f x t h - y (p.lam (t + h))‖ ≤ _ from s).trans ?_
        nlinarith
      have bc := bound_cons C2 ρ0 le_rfl η0 e0 h hs
      have nn : 0 ≤ e + 2 * (C / 2) * |h| * e + |h| * (4 * 0 + 2 * (C * δ ^ q / 2)) + η := by positivity
      have bm := bound_mono C2 ρ0 le_rfl η0 nn hs
      have pe := hpost n (step T p f x t h) ⟨t + h, inside_head hin.2, by
        have : m ≤ R := min_le_right _ _
        linarith⟩
      have new : ‖post n (step T p f x t h) - y (p.lam (t + h))‖ ≤ e + 2 * (C / 2) * |h| * e + |h| * (4 * 0 + 2 * (C * δ ^ q / 2)) + η := by
        have := norm_add_le (post n (step T p f x t h) - step T p f x t h) (step T p f x t h - y (p.lam (t + h)))
        rw [sub_add_sub_cancel] at this
        linarith
      have bl := (bound_le (L := C / 2) (ρ := C * δ ^ q / 2) (ω := 0) (η := η) new hs).trans bc
      have := ih (n + 1) (t + h) (post n (step T p f x t h)) hin.2 (fun z hz => hsm z (List.mem_cons_of_mem _ hz)) (bl.trans hb)
      rw [List.sum_cons, ← add_assoc]
      exact this.trans bl
  set e := ‖x - y (p.lam t)‖ with he
  have e0 : 0 ≤ e := norm_nonneg _
  have l0 := length_nonneg hs
  have N0 : 0 ≤ (hs.length : ℝ) * η := by positivity
  have bb : bound (C / 2) (C * δ ^ q / 2) 0 η e hs ≤ X * (e + C * Len * δ ^ q + hs.length * η) := by
    unfold bound
    have x1 : Real.exp (2 * (C / 2) * length hs) ≤ X := Real.exp_le_exp.2 (by
      have := mul_le_mul_of_nonneg_left hlen C0
      linarith)
    have x2 : e + length hs * (4 * 0 + 2 * (C * δ ^ q / 2)) + hs.length * η ≤ e + C * Len * δ ^ q + hs.length * η := by
      have := mul_le_mul_of_nonneg_left hlen (show 0 ≤ C * δ ^ q by positivity)
      nlinarith
    exact mul_le_mul x1 x2 (by positivity) (by linarith)
  refine (key hs 0 t x hin hsm (bb.trans ?_)).trans (bb.trans ?_)
  · refine le_trans ?_ k3
    have : e + C * Len * δ ^ q + hs.length * η ≤ κ * (2 + C * Len) := by
      have := mul_le_mul_of_nonneg_left δq (show 0 ≤ C * Len by positivity)
      nlinarith
    have := mul_le_mul_of_nonneg_left this (show 0 ≤ X by linarith)
    nlinarith
  · have c0 : 0 ≤ C * Len := by positivity
    have : e + C * Len * δ ^ q + hs.length * η ≤ (1 + C * Len) * (e + δ ^ q + hs.length * η) := by
      nlinarith [mul_nonneg c0 e0, mul_nonneg c0 N0]
    have := mul_le_mul_of_nonneg_left this (show 0 ≤ X by linarith)
    linarith

/-- **C173** (estimate). The error vector is what the embedded scheme misses, up to a higher power of the step: the difference
is of the sixth order for Cash and Karp and of the fourth for Bogacki and Shampine, while the vector itself is of the fifth
and of the third. -/
theorem c173_estimate (S : Smooth J p f y) {T : Tableau} {q : ℕ} (hT : (T, q) ∈ [(cashKarp, 4), (bogackiShampine, 2)]) (hI : IsCompact I) (hIJ : I ⊆ J) :
    ∃ C, ∃ r > 0, ∀ t ∈ I, ∀ h, |h| ≤ r → ‖(rkStep T p f (y (p.lam t)) (f (y (p.lam t)) (p.lam t)) t h).2‖ ≤ C * |h| ^ (q + 1) ∧
      ‖(rkStep T p f (y (p.lam t)) (f (y (p.lam t)) (p.lam t)) t h).2 -
        (y (p.lam (t + h)) - combine T.bLow (y (p.lam t)) h (slopes T p f (y (p.lam t)) (f (y (p.lam t)) (p.lam t)) t h))‖ ≤ C * |h| ^ (q + 2) := by
  obtain ⟨H, hl, hh⟩ : Fit T ∧ (Conditions T T.bLow q ∧ q ≤ 5) ∧ Conditions T T.bHigh (q + 1) ∧ q + 1 ≤ 5 := by
    simp only [List.mem_cons, Prod.mk.injEq, List.not_mem_nil, or_false] at hT
    rcases hT with ⟨rfl, rfl⟩ | ⟨rfl, rfl⟩
    · exact ⟨fit (by simp [tableaux]), ⟨conditions_low.1, by omega⟩, conditions_high.1, by omega⟩
    · exact ⟨fit (by simp [tableaux]), ⟨conditions_low.2, by omega⟩, conditions_high.2.2, by omega⟩
  obtain ⟨C, C0, r, r0, a⟩ := steps S H hl.1 hl.2 hI hIJ
  obtain ⟨C', C0', r', r0', a'⟩ := steps S H hh.1 hh.2 hI hIJ
  refine ⟨C + C', min 1 (min r r'), lt_min one_pos (lt_min r0 r0'), fun t ht h hh => ?_⟩
  have b := (a t ht h (hh.trans ((min_le_right _ _).trans (min_le_left _ _)))).1
  have b' := (a' t ht h (hh.trans ((min_le_right _ _).trans (min_le_right _ _)))).1
  have h1 : |h| ≤ 1 := hh.trans (min_le_left _ _)
  have h0 := abs_nonneg h
  set lo := combine T.bLow (y (p.lam t)) h (slopes T p f (y (p.lam t)) (f (y (p.lam t)) (p.lam t)) t h) with hlo
  set hi := combine T.bHigh (y (p.lam t)) h (slopes T p f (y (p.lam t)) (f (y (p.lam t)) (p.lam t)) t h) with hhi
  have e : (rkStep T p f (y (p.lam t)) (f (y (p.lam t)) (p.lam t)) t h).2 = hi - lo := by
    rw [error_after H, hhi, hlo, combine_after H, combine_after H]
  rw [e]
  have pw : |h| ^ (q + 2) ≤ |h| ^ (q + 1) := pow_le_pow_of_le_one h0 h1 (by omega)
  have p0 : 0 ≤ |h| ^ (q + 2) := by positivity
  constructor
  · have := norm_sub_le (hi - y (p.lam (t + h))) (lo - y (p.lam (t + h)))
    rw [sub_sub_sub_cancel_right] at this
    have := mul_le_mul_of_nonneg_left pw C0'
    nlinarith
  · rw [show hi - lo - (y (p.lam (t + h)) - lo) = hi - y (p.lam (t + h)) by abel]
    have := mul_nonneg C0 p0
    nlinarith

theorem exp_smooth : Smooth Set.univ ⟨id, fun _ => 1⟩ (fun x _ => x) Real.exp where
  isOpen := isOpen_univ
  param t _ := hasDerivAt_id t
  speed := contDiffOn_const
  flow t _ := Real.hasDerivAt_exp t
  rhs _ _ := contDiffAt_fst

/-- **C173** (sharp). The powers cannot be improved: for the flow `y' = y` the error of one step is at least a constant
times the sixth, fifth and fourth power of the step. -/
theorem c173_sharp {h : ℝ} (h0 : 0 ≤ h) :
    h ^ 6 / 7200 ≤ Real.exp h - step cashKarp ⟨id, fun _ => 1⟩ (fun x _ => x) (1 : ℝ) 0 h ∧
    h ^ 5 / 120 ≤ Real.exp h - step rk4 ⟨id, fun _ => 1⟩ (fun x _ => x) (1 : ℝ) 0 h ∧
    h ^ 4 / 24 ≤ Real.exp h - step bogackiShampine ⟨id, fun _ => 1⟩ (fun x _ => x) (1 : ℝ) 0 h := by
  have e7 := Real.sum_le_exp_of_nonneg h0 7
  have e6 := Real.sum_le_exp_of_nonneg h0 6
  have e5 := Real.sum_le_exp_of_nonneg h0 5
  simp only [Finset.sum_range_succ, Finset.sum_range_zero, Nat.factorial] at e7 e6 e5
  norm_num at e7 e6 e5
  have a := c12_linear_flow (LinearMap.id : ℝ →ₗ[ℝ] ℝ) 1 0 h
  have b := c12_linear_flow_rk4 (LinearMap.id : ℝ →ₗ[ℝ] ℝ) 1 0 h
  simp only [LinearMap.id_apply, smul_eq_mul, mul_one] at a b
  have a' : step cashKarp ⟨id, fun _ => 1⟩ (fun x _ => x) (1 : ℝ) 0 h = _ := a
  have b' : step rk4 ⟨id, fun _ => 1⟩ (fun x _ => x) (1 : ℝ) 0 h = _ := b
  have c' : step bogackiShampine ⟨id, fun _ => 1⟩ (fun x _ => x) (1 : ℝ) 0 h = 1 + h + h ^ 2 / 2 + h ^ 3 / 6 := by
    simp [step, rkStep, slopes, stageLoop, stageState, combine, Tableau.getA, List.range_succ, bogackiShampine]
    ring
  rw [a', b', c']
  refine ⟨by linarith, by linarith, by linarith⟩

/-- An instance of the hypotheses: the flow of `y' = y` on the whole line. -/
example : ∃ C, ∃ r > 0, ∀ t ∈ Set.Icc (0 : ℝ) 5, ∀ h, |h| ≤ r →
    ‖step cashKarp ⟨id, fun _ => 1⟩ (fun x _ => x) (Real.exp t) t h - Real.exp (t + h)‖ ≤ C * |h| ^ 6 :=
  c173_step exp_smooth (T := cashKarp) (q := 5) (by simp [orders]) isCompact_Icc (Set.subset_univ _)

end Verif.Order
