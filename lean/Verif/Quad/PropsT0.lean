import Verif.Quad.ModelT0
import Mathlib.Tactic.Linarith
import Mathlib.Data.List.GetD
import Mathlib.Tactic.Module
import Mathlib.Tactic.Positivity

/-
C87: the splitting used for self-energy loops and zero-temperature bubbles covers the axis up to tiny windows
next to its special frequencies.
-/
namespace Verif.Quad

variable {E : Type} [NormedAddCommGroup E] [NormedSpace ℝ E]

/-- Lower and upper end of an interval at a split point. -/
noncomputable def lo (w p : ℝ) : ℝ := open Classical in if near w p then p + tolT0 else p
noncomputable def up (w p : ℝ) : ℝ := open Classical in if near w p then p - tolT0 else p

theorem tol_pos : 0 < tolT0 := by unfold tolT0; norm_num

theorem lo_bounds (w p : ℝ) : p ≤ lo w p ∧ lo w p ≤ p + tolT0 := by
  have := tol_pos
  unfold lo; split_ifs <;> constructor <;> linarith

theorem up_bounds (w p : ℝ) : up w p ≤ p ∧ p - tolT0 ≤ up w p := by
  have := tol_pos
  unfold up; split_ifs <;> constructor <;> linarith

/-- The intervals between the first `n + 1` split points. -/
noncomputable def cellsTo (w : ℝ) (s : Nat → ℝ) : Nat → List (ℝ × ℝ)
  | 0 => []
  | n + 1 => open Classical in
    if s n ≠ s (n + 1) then cellsTo w s n ++ [(lo w (s n), up w (s (n + 1)))] else cellsTo w s n

theorem modifyLast_append {α : Type} (g : α → α) (l : List α) (x : α) : modifyLast g (l ++ [x]) = l ++ [g x] := by
  induction l with
  | nil => rfl
  | cons y r ih =>
    cases r with
    | nil => rfl
    | cons z r => simpa [modifyLast] using ih

theorem modifyLast_eq_nil {α : Type} (g : α → α) (l : List α) : modifyLast g l = [] ↔ l = [] := by
  match l with
  | [] => simp [modifyLast]
  | [x] => simp [modifyLast]
  | x :: y :: r => simp [modifyLast]

theorem foldl_cells (w : ℝ) (s : Nat → ℝ) (n : Nat) :
    let cells := (List.range n).foldl (stepT0 w s) []
    open Classical in
    modifyLast (fun c => if near w c.2 then (c.1, c.2 - tolT0) else c) cells = cellsTo w s n ∧
      (∀ l x, cells = l ++ [x] → x.2 = s n) := by
  induction n with
  | zero => simp [modifyLast, cellsTo]
  | succ n ih =>
    obtain ⟨h1, h2⟩ := ih
    rw [List.range_succ, List.foldl_append]
    generalize (List.range n).foldl (stepT0 w s) [] = cells at h1 h2
    simp only [List.foldl_cons, List.foldl_nil]
    have h3 : open Classical in (if near w (s n) then modifyLast (fun c => (c.1, c.2 - tolT0)) cells else cells) =
        cellsTo w s n := by
      rcases List.eq_nil_or_concat cells with rfl | ⟨l, x, rfl⟩
      · simpa [modifyLast] using h1
      · have hx := h2 l x (by simp)
        rw [List.concat_eq_append, modifyLast_append] at h1 ⊢
        rw [hx] at h1
        by_cases hn : near w (s n)
        · simpa [hn, hx] using h1
        · simpa [hn] using h1
    by_cases hs : s n ≠ s (n + 1)
    · have e : stepT0 w s cells n = cellsTo w s n ++ [(lo w (s n), s (n + 1))] := by
        rw [stepT0, if_pos hs, ← h3]
        by_cases hn : near w (s n) <;> simp [hn, lo]
      rw [e]
      constructor
      · rw [modifyLast_append, cellsTo, if_pos hs]
        by_cases hn : near w (s (n + 1)) <;> simp [hn, up]
      · intro l x hl
        have := (List.append_inj' hl rfl).2
        rw [List.singleton_inj] at this
        rw [← this]
    · have e : stepT0 w s cells n = cells := by simp only [stepT0, hs, if_false]
      rw [e]
      constructor
      · rw [h1, cellsTo, if_neg hs]
      · intro l x hl
        rw [h2 l x hl]
        simpa using hs

/-! Facts about the split points. -/

theorem points_length (vmin vmax wHalf : ℝ) (freqs : List ℝ) :
    (pointsT0 vmin vmax wHalf freqs).length = maxT0 wHalf freqs + 1 := by
  have h : (freqs.flatMap fun x => [-1 * x, 1 * x]).length = freqs.length * 2 := by
    induction freqs with
    | nil => rfl
    | cons y r ih => rw [List.flatMap_cons, List.length_append, ih]; simp; ring
  rw [pointsT0, maxT0, List.length_append, h]
  split_ifs <;> simp <;> omega

/-- C87 (memory).  Every split point read by the loop exists. -/
theorem c87_in_range (vmin vmax wHalf : ℝ) (freqs : List ℝ) (i : Nat) (hi : i < maxT0 wHalf freqs) :
    i + 1 < ((pointsT0 vmin vmax wHalf freqs).insertionSort (· ≤ ·)).length := by
  rw [List.length_insertionSort, points_length]
  omega

theorem sorted_mono (vmin vmax wHalf : ℝ) (freqs : List ℝ) (i j : Nat) (hij : i ≤ j) (hj : j ≤ maxT0 wHalf freqs) :
    sortedT0 vmin vmax wHalf freqs i ≤ sortedT0 vmin vmax wHalf freqs j := by
  have hl : ((pointsT0 vmin vmax wHalf freqs).insertionSort (· ≤ ·)).length = maxT0 wHalf freqs + 1 := by
    rw [List.length_insertionSort, points_length]
  have hp := List.pairwise_insertionSort (· ≤ ·) (pointsT0 vmin vmax wHalf freqs)
  unfold sortedT0
  generalize (pointsT0 vmin vmax wHalf freqs).insertionSort (· ≤ ·) = l at hl hp
  rw [List.getD_eq_getElem _ _ (by omega), List.getD_eq_getElem _ _ (by omega)]
  rcases Nat.eq_or_lt_of_le hij with rfl | h
  · exact le_rfl
  · exact List.pairwise_iff_getElem.mp hp i j (by omega) (by omega) h

theorem sorted_mem (vmin vmax wHalf : ℝ) (freqs : List ℝ) (x : ℝ) : x ∈ pointsT0 vmin vmax wHalf freqs ↔
    ∃ i, i ≤ maxT0 wHalf freqs ∧ sortedT0 vmin vmax wHalf freqs i = x := by
  have hl : ((pointsT0 vmin vmax wHalf freqs).insertionSort (· ≤ ·)).length = maxT0 wHalf freqs + 1 := by
    rw [List.length_insertionSort, points_length]
  rw [← List.mem_insertionSort (r := (· ≤ ·)), List.mem_iff_getElem]
  constructor
  · rintro ⟨i, hi, rfl⟩
    exact ⟨i, by omega, by rw [sortedT0, List.getD_eq_getElem]⟩
  · rintro ⟨i, hi, rfl⟩
    exact ⟨i, by omega, by rw [sortedT0, List.getD_eq_getElem]⟩

theorem intervals_eq (vmin vmax wHalf : ℝ) (freqs : List ℝ) (cells : List (ℝ × ℝ))
    (h : intervalsT0 vmin vmax wHalf freqs = .ok cells) :
    cells = cellsTo (effW wHalf) (sortedT0 vmin vmax wHalf freqs) (maxT0 wHalf freqs) ∧ cells ≠ [] := by
  obtain ⟨h1, _⟩ := foldl_cells (effW wHalf) (sortedT0 vmin vmax wHalf freqs) (maxT0 wHalf freqs)
  simp only [intervalsT0] at h
  split_ifs at h with hc
  have h' := Except.ok.inj h
  rw [← h']
  exact ⟨h1, by rw [Ne, modifyLast_eq_nil]; exact hc⟩

theorem cellsTo_mem {w : ℝ} {s : Nat → ℝ} : ∀ {n : Nat} {c : ℝ × ℝ}, c ∈ cellsTo w s n →
    ∃ i, i < n ∧ s i ≠ s (i + 1) ∧ c = (lo w (s i), up w (s (i + 1))) := by
  intro n
  induction n with
  | zero => intro c h; simp [cellsTo] at h
  | succ n ih =>
    intro c h
    rw [cellsTo] at h
    split_ifs at h with hs
    · rcases List.mem_append.mp h with h | h
      · obtain ⟨i, hi, h⟩ := ih h
        exact ⟨i, by omega, h⟩
      · exact ⟨n, by omega, hs, List.mem_singleton.mp h⟩
    · obtain ⟨i, hi, h⟩ := ih h
      exact ⟨i, by omega, h⟩

theorem cellsTo_cover {w : ℝ} {s : Nat → ℝ} : ∀ {n : Nat} (_ : ∀ i, i < n → s i ≤ s (i + 1)) {x : ℝ}
    (_ : s 0 ≤ x) (_ : x ≤ s n) (_ : s 0 < s n)
    (_ : ∀ i, i ≤ n → near w (s i) → tolT0 < |x - s i|), ∃ c ∈ cellsTo w s n, c.1 ≤ x ∧ x ≤ c.2 := by
  intro n
  induction n with
  | zero => intro _ x _ _ h _; exact absurd h (lt_irrefl _)
  | succ n ih =>
    intro hm x h0 h1 hlt hx
    have hmono : s 0 ≤ s n := by
      clear ih h0 h1 hlt hx
      induction n with
      | zero => exact le_rfl
      | succ k ihk => exact le_trans (ihk fun i hi => hm i (by omega)) (hm k (by omega))
    by_cases hx1 : x ≤ s n ∧ s 0 < s n
    · obtain ⟨c, hc, h⟩ := ih (fun i hi => hm i (by omega)) h0 hx1.1 hx1.2 (fun i hi => hx i (by omega))
      refine ⟨c, ?_, h⟩
      rw [cellsTo]
      split_ifs
      · exact List.mem_append_left _ hc
      · exact hc
    · have hge : s n ≤ x := by
        by_contra hc
        exact hx1 ⟨(not_le.mp hc).le, lt_of_le_of_lt h0 (not_le.mp hc)⟩
      have hne : s n ≠ s (n + 1) := by
        intro he
        apply hx1
        rw [he]
        exact ⟨h1, hlt⟩
      refine ⟨(lo w (s n), up w (s (n + 1))), ?_, ?_, ?_⟩
      · rw [cellsTo, if_pos hne]; simp
      · dsimp only
        unfold lo
        split_ifs with hn
        · have := hx n (by omega) hn
          rw [abs_of_nonneg (by linarith)] at this
          linarith
        · exact hge
      · dsimp only
        unfold up
        split_ifs with hn
        · have := hx (n + 1) le_rfl hn
          rw [abs_of_nonpos (by linarith)] at this
          linarith
        · exact h1

theorem cellsTo_sum {w : ℝ} {s : Nat → ℝ} (F : ℝ → E) (I : ℝ → ℝ → E) (hI : ∀ x y, x ≤ y → I x y = F y - F x)
    (M : ℝ) (hF : ∀ x y, ‖F x - F y‖ ≤ M * |x - y|) : ∀ (n : Nat) (_ : ∀ i, i < n → s i ≤ s (i + 1)),
    open Classical in
    ‖((cellsTo w s n).map fun c => if c.1 < c.2 then I c.1 c.2 else 0).sum - (F (s n) - F (s 0))‖ ≤
      2 * tolT0 * M * n := by
  have hM : 0 ≤ M := by
    have := hF 1 0
    have h0 := norm_nonneg (F 1 - F 0)
    norm_num at this
    linarith
  have ht := tol_pos
  intro n
  induction n with
  | zero => intro _; simp [cellsTo]
  | succ n ih =>
    intro hm
    have hi := ih fun i hi => hm i (by omega)
    have hs := hm n (by omega)
    have key : ∀ (S : E) (r : E), ‖S - (F (s n) - F (s 0))‖ ≤ 2 * tolT0 * M * n →
        ‖r - (F (s (n + 1)) - F (s n))‖ ≤ 2 * tolT0 * M →
        ‖S + r - (F (s (n + 1)) - F (s 0))‖ ≤ 2 * tolT0 * M * ((n + 1 : Nat) : ℝ) := by
      intro S r a1 a2
      have e : S + r - (F (s (n + 1)) - F (s 0)) =
          (S - (F (s n) - F (s 0))) + (r - (F (s (n + 1)) - F (s n))) := by abel
      rw [e]
      refine le_trans (norm_add_le _ _) ?_
      push_cast
      linarith
    rw [cellsTo]
    by_cases hne : s n ≠ s (n + 1)
    · rw [if_pos hne, List.map_append, List.sum_append]
      apply key _ _ hi
      simp only [List.map_cons, List.map_nil, List.sum_cons, List.sum_nil, add_zero]
      obtain ⟨l1, l2⟩ := lo_bounds w (s n)
      obtain ⟨u1, u2⟩ := up_bounds w (s (n + 1))
      split_ifs with hc
      · rw [hI _ _ hc.le]
        have e : F (up w (s (n + 1))) - F (lo w (s n)) - (F (s (n + 1)) - F (s n)) =
            (F (up w (s (n + 1))) - F (s (n + 1))) + (F (s n) - F (lo w (s n))) := by abel
        rw [e]
        refine le_trans (norm_add_le _ _) ?_
        have b1 := hF (up w (s (n + 1))) (s (n + 1))
        have b2 := hF (s n) (lo w (s n))
        rw [abs_of_nonpos (by linarith)] at b1 b2
        have c1 := mul_le_mul_of_nonneg_left (by linarith : -(up w (s (n + 1)) - s (n + 1)) ≤ tolT0) hM
        have c2 := mul_le_mul_of_nonneg_left (by linarith : -(s n - lo w (s n)) ≤ tolT0) hM
        linarith
      · rw [zero_sub, norm_neg]
        refine le_trans (hF _ _) ?_
        rw [abs_of_nonneg (by linarith)]
        have := mul_le_mul_of_nonneg_left (by linarith [not_lt.mp hc] : s (n + 1) - s n ≤ 2 * tolT0) hM
        linarith
    · rw [if_neg hne]
      have he : s n = s (n + 1) := by simpa using hne
      rw [← he]
      push_cast
      have : 0 ≤ 2 * tolT0 * M := by positivity
      linarith

theorem cellsTo_ends {w : ℝ} {s : Nat → ℝ} : ∀ (n : Nat) (_ : cellsTo w s n ≠ []) (_ : ∀ i, i < n → s i ≤ s (i + 1)),
    ((cellsTo w s n).head?.map Prod.fst).getD 0 = lo w (s 0) ∧
      ((cellsTo w s n).getLast?.map Prod.snd).getD 0 = up w (s n) := by
  intro n
  induction n with
  | zero => intro h; simp [cellsTo] at h
  | succ n ih =>
    intro h hm
    rw [cellsTo] at h ⊢
    by_cases hne : s n ≠ s (n + 1)
    · rw [if_pos hne] at h ⊢
      refine ⟨?_, by simp⟩
      by_cases hc : cellsTo w s n = []
      · rw [hc]
        have : s n = s 0 := by
          clear ih h hne
          induction n with
          | zero => rfl
          | succ k ihk =>
            rw [cellsTo] at hc
            split_ifs at hc with hk
            · simp at hc
            · rw [← ihk (fun i hi => hm i (by omega)) hc]
              simpa using (not_not.mp hk).symm
        simp [this]
      · obtain ⟨a, -⟩ := ih hc fun i hi => hm i (by omega)
        obtain ⟨c, r, hcr⟩ := List.exists_cons_of_ne_nil hc
        rw [hcr] at a ⊢
        simpa using a
    · rw [if_neg hne] at h ⊢
      obtain ⟨a, b⟩ := ih h fun i hi => hm i (by omega)
      have he : s n = s (n + 1) := by simpa using hne
      exact ⟨a, by rw [b, he]⟩

/-! The property. -/

/-- C87 (coverage).  For all limits, special frequencies `±w_half` and further frequencies: every frequency between the
smallest and the largest split point that is farther than `10⁻¹⁰` from the split points close to `±w_half` lies in one of
the intervals. -/
theorem c87_coverage (vmin vmax wHalf : ℝ) (freqs : List ℝ) (cells : List (ℝ × ℝ))
    (h : intervalsT0 vmin vmax wHalf freqs = .ok cells) (x p q : ℝ) (hp : p ∈ pointsT0 vmin vmax wHalf freqs)
    (hq : q ∈ pointsT0 vmin vmax wHalf freqs) (hpx : p ≤ x) (hxq : x ≤ q)
    (hx : ∀ y ∈ pointsT0 vmin vmax wHalf freqs, near (effW wHalf) y → tolT0 < |x - y|) :
    ∃ c ∈ cells, c.1 ≤ x ∧ x ≤ c.2 := by
  obtain ⟨rfl, hne⟩ := intervals_eq _ _ _ _ _ h
  obtain ⟨i, hi, rfl⟩ := (sorted_mem vmin vmax wHalf freqs p).mp hp
  obtain ⟨j, hj, rfl⟩ := (sorted_mem vmin vmax wHalf freqs q).mp hq
  have hm := fun i (hi : i < maxT0 wHalf freqs) =>
    sorted_mono vmin vmax wHalf freqs i (i + 1) (by omega) (by omega)
  apply cellsTo_cover hm (le_trans (sorted_mono _ _ _ _ 0 i (by omega) hi) hpx)
    (le_trans hxq (sorted_mono _ _ _ _ j _ hj le_rfl))
  · refine lt_of_le_of_ne (sorted_mono _ _ _ _ 0 _ (by omega) le_rfl) fun he => ?_
    obtain ⟨c, r, hcr⟩ := List.exists_cons_of_ne_nil hne
    obtain ⟨k, hk, hk', -⟩ := cellsTo_mem (show c ∈ cellsTo _ _ _ by rw [hcr]; simp)
    have a1 := sorted_mono vmin vmax wHalf freqs 0 k (by omega) (by omega)
    have a2 := hm k hk
    have a3 := sorted_mono vmin vmax wHalf freqs (k + 1) (maxT0 wHalf freqs) (by omega) le_rfl
    exact hk' (le_antisymm a2 (by linarith))
  · intro k hk
    exact hx _ ((sorted_mem _ _ _ _ _).mpr ⟨k, hk, rfl⟩)

/-- C87 (avoidance).  No interval contains a split point close to `±w_half`, and no interval contains any split point in
its interior. -/
theorem c87_avoidance (vmin vmax wHalf : ℝ) (freqs : List ℝ) (cells : List (ℝ × ℝ))
    (h : intervalsT0 vmin vmax wHalf freqs = .ok cells) (c : ℝ × ℝ) (hc : c ∈ cells) (p : ℝ)
    (hp : p ∈ pointsT0 vmin vmax wHalf freqs) :
    (¬ (c.1 < p ∧ p < c.2)) ∧ (near (effW wHalf) p → ¬ (c.1 ≤ p ∧ p ≤ c.2)) := by
  obtain ⟨rfl, -⟩ := intervals_eq _ _ _ _ _ h
  obtain ⟨i, hi, hne, rfl⟩ := cellsTo_mem hc
  obtain ⟨j, hj, rfl⟩ := (sorted_mem vmin vmax wHalf freqs p).mp hp
  have ht := tol_pos
  obtain ⟨l1, l2⟩ := lo_bounds (effW wHalf) (sortedT0 vmin vmax wHalf freqs i)
  obtain ⟨u1, u2⟩ := up_bounds (effW wHalf) (sortedT0 vmin vmax wHalf freqs (i + 1))
  rcases Nat.lt_or_ge i j with hij | hij
  · have a := sorted_mono vmin vmax wHalf freqs (i + 1) j (by omega) hj
    refine ⟨fun ⟨_, h2⟩ => by dsimp only at h2; linarith, fun hn ⟨_, h2⟩ => ?_⟩
    dsimp only at h2
    have e : sortedT0 vmin vmax wHalf freqs j = sortedT0 vmin vmax wHalf freqs (i + 1) := by linarith
    rw [e] at hn h2
    simp only [up, hn, if_true] at h2
    linarith
  · have a := sorted_mono vmin vmax wHalf freqs j i hij (by omega)
    refine ⟨fun ⟨h1, _⟩ => by dsimp only at h1; linarith, fun hn ⟨h1, _⟩ => ?_⟩
    dsimp only at h1
    have e : sortedT0 vmin vmax wHalf freqs j = sortedT0 vmin vmax wHalf freqs i := by linarith
    rw [e] at hn h1
    simp only [lo, hn, if_true] at h1
    linarith

/-- C87 (accuracy).  With the tails, for every integrand bounded by `M` (its antiderivative `F` has Lipschitz constant `M`
and limits `Fm`, `Fp`) and exact integration of pieces and tails: the result differs from the integral over the whole
axis by at most `2 · 10⁻¹⁰ · M` per split point. -/
theorem c87_accuracy (F : ℝ → E) (Fm Fp : E) (M : ℝ) (hF : ∀ x y, ‖F x - F y‖ ≤ M * |x - y|) (I : ℝ → ℝ → E)
    (L U : ℝ → E) (hI : ∀ x y, x ≤ y → I x y = F y - F x) (hL : ∀ x, L x = F x - Fm) (hU : ∀ x, U x = Fp - F x)
    (vmin vmax wHalf : ℝ) (freqs : List ℝ) (r : E)
    (h : integrateT0 I L U vmin vmax wHalf freqs true = .ok r) :
    ‖r - (Fp - Fm)‖ ≤ 2 * tolT0 * M * (2 * freqs.length + 4) := by
  simp only [integrateT0, bind, Except.bind] at h
  split at h
  · cases h
  · rename_i cells hc
    simp only [pure, Except.pure, Except.ok.injEq] at h
    obtain ⟨rfl, hne⟩ := intervals_eq _ _ _ _ _ hc
    have hm := fun i (hi : i < maxT0 wHalf freqs) =>
      sorted_mono vmin vmax wHalf freqs i (i + 1) (by omega) (by omega)
    obtain ⟨e1, e2⟩ := cellsTo_ends _ hne hm
    have hs := cellsTo_sum (w := effW wHalf) F I hI M hF _ hm
    rw [← h]
    simp only [overIntervals, if_true]
    rw [e1, e2, hL, hU]
    generalize (List.sum _ : E) = S at hs ⊢
    obtain ⟨l1, l2⟩ := lo_bounds (effW wHalf) (sortedT0 vmin vmax wHalf freqs 0)
    obtain ⟨u1, u2⟩ := up_bounds (effW wHalf) (sortedT0 vmin vmax wHalf freqs (maxT0 wHalf freqs))
    generalize sortedT0 vmin vmax wHalf freqs 0 = a at *
    generalize sortedT0 vmin vmax wHalf freqs (maxT0 wHalf freqs) = b at *
    have hM : 0 ≤ M := by
      have := hF 1 0
      have h0 := norm_nonneg (F 1 - F 0)
      norm_num at this
      linarith
    have ht := tol_pos
    have e : S + (F (lo (effW wHalf) a) - Fm) + (Fp - F (up (effW wHalf) b)) - (Fp - Fm) =
        (S - (F b - F a)) + (F (lo (effW wHalf) a) - F a) + (F b - F (up (effW wHalf) b)) := by abel
    rw [e]
    have b1 := hF (lo (effW wHalf) a) a
    have b2 := hF b (up (effW wHalf) b)
    rw [abs_of_nonneg (by linarith)] at b1 b2
    have c1 := mul_le_mul_of_nonneg_left (by linarith : lo (effW wHalf) a - a ≤ tolT0) hM
    have c2 := mul_le_mul_of_nonneg_left (by linarith : b - up (effW wHalf) b ≤ tolT0) hM
    have n1 := norm_add_le ((S - (F b - F a)) + (F (lo (effW wHalf) a) - F a)) (F b - F (up (effW wHalf) b))
    have n2 := norm_add_le (S - (F b - F a)) (F (lo (effW wHalf) a) - F a)
    have hmax : ((maxT0 wHalf freqs : Nat) : ℝ) ≤ 2 * freqs.length + 3 := by
      unfold maxT0
      split_ifs <;> push_cast <;> linarith
    have := mul_le_mul_of_nonneg_left hmax (by positivity : 0 ≤ 2 * tolT0 * M)
    linarith

/-- C87 fails (undefined behaviour) when all split points coincide, for instance for an empty range at zero. -/
theorem c87_empty_refuted (I : ℝ → ℝ → E) (L U : ℝ → E) (isinf : Bool) :
    integrateT0 I L U 0 0 0 [] isinf = .error .undefined := by
  have ht := tol_pos
  have hp : pointsT0 0 0 0 [] = [0, 0, 0] := by simp [pointsT0, effW, ht]
  have hs : ∀ i, sortedT0 0 0 0 [] i = 0 := fun i => by
    rw [sortedT0, hp]
    simp only [List.insertionSort, List.foldr, List.orderedInsert, le_refl, if_true]
    match i with
    | 0 => rfl
    | 1 => rfl
    | 2 => rfl
    | k + 3 => rfl
  have hc : ∀ l : List Nat, l.foldl (stepT0 (effW 0) (sortedT0 0 0 0 [])) [] = [] := by
    intro l
    induction l with
    | nil => rfl
    | cons i r ih => rw [List.foldl_cons]; simp only [stepT0, hs, ne_eq, not_true, if_false]; exact ih
  simp only [integrateT0, intervalsT0, hc, if_true, bind, Except.bind]

/-- C87 fails for a negative special frequency: it is replaced by zero, and an interval runs across it. -/
theorem c87_negative_refuted : ∃ cells, intervalsT0 (-10) 10 (-1) [] = .ok cells ∧
    ∃ c ∈ cells, c.1 < -1 ∧ -1 < c.2 := by
  have ht := tol_pos
  have hlt : (-1 : ℝ) < tolT0 := by linarith
  have hp : pointsT0 (-10) 10 (-1) [] = [0, -10, 10] := by simp [pointsT0, effW, hlt]
  have hsort : ([0, -10, 10] : List ℝ).insertionSort (· ≤ ·) = [-10, 0, 10] := by
    simp only [List.insertionSort, List.foldr, List.orderedInsert]
    norm_num [List.orderedInsert]
  have s0 : sortedT0 (-10) 10 (-1) [] 0 = -10 := by rw [sortedT0, hp, hsort]; rfl
  have s1 : sortedT0 (-10) 10 (-1) [] 1 = 0 := by rw [sortedT0, hp, hsort]; rfl
  have s2 : sortedT0 (-10) 10 (-1) [] 2 = 10 := by rw [sortedT0, hp, hsort]; rfl
  have hmax : maxT0 (-1) [] = 2 := by simp [maxT0, hlt]
  have hne : (List.range (maxT0 (-1) [])).foldl (stepT0 (effW (-1)) (sortedT0 (-10) 10 (-1) [])) [] ≠ [] := by
    obtain ⟨h1, -⟩ := foldl_cells (effW (-1)) (sortedT0 (-10) 10 (-1) []) (maxT0 (-1) [])
    intro hc
    rw [hc, hmax] at h1
    simp [modifyLast, cellsTo, s0, s1, s2] at h1
  obtain ⟨cells, hcells⟩ : ∃ cells, intervalsT0 (-10) 10 (-1) [] = .ok cells := by
    simp only [intervalsT0, hne, if_false]
    exact ⟨_, rfl⟩
  refine ⟨cells, hcells, (lo (effW (-1)) (-10), up (effW (-1)) 0), ?_, ?_, ?_⟩
  · rw [(intervals_eq _ _ _ _ _ hcells).1, hmax]
    simp [cellsTo, s0, s1, s2]
  · have : ¬ near (effW (-1)) (-10) := by
      simp only [near, effW, hlt, if_true, tolT0]
      norm_num
    simp only [lo, this, if_false]
    norm_num
  · have := (up_bounds (effW (-1)) 0).2
    dsimp only
    unfold tolT0 at this
    norm_num at this ⊢
    linarith

/-- A self-energy loop: `w_half = 0`, feature at 2: a result is returned, so the hypotheses above are met. -/
example : ∃ cells, intervalsT0 (-10) 10 0 [2] = .ok cells := by
  have ht := tol_pos
  have hp : pointsT0 (-10) 10 0 [2] = [0, -10, 10, -2, 2] := by simp [pointsT0, effW, ht]
  have hsort : ([0, -10, 10, -2, 2] : List ℝ).insertionSort (· ≤ ·) = [-10, -2, 0, 2, 10] := by
    simp only [List.insertionSort, List.foldr, List.orderedInsert]
    norm_num [List.orderedInsert]
  have s0 : sortedT0 (-10) 10 0 [2] 0 = -10 := by rw [sortedT0, hp, hsort]; rfl
  have s1 : sortedT0 (-10) 10 0 [2] 1 = -2 := by rw [sortedT0, hp, hsort]; rfl
  have hne : (List.range (maxT0 0 [2])).foldl (stepT0 (effW 0) (sortedT0 (-10) 10 0 [2])) [] ≠ [] := by
    obtain ⟨h1, -⟩ := foldl_cells (effW 0) (sortedT0 (-10) 10 0 [2]) (maxT0 0 [2])
    intro hc
    rw [hc] at h1
    have : maxT0 0 [2] = 4 := by simp [maxT0, ht]
    rw [this] at h1
    have h01 : sortedT0 (-10) 10 0 [2] 0 ≠ sortedT0 (-10) 10 0 [2] 1 := by rw [s0, s1]; norm_num
    simp only [cellsTo, ne_eq, modifyLast] at h1
    rw [if_pos (show ¬ sortedT0 (-10) 10 0 [2] 0 = sortedT0 (-10) 10 0 [2] (0 + 1) from h01)] at h1
    split_ifs at h1 <;> simp at h1
  simp only [intervalsT0, hne, if_false]
  exact ⟨_, rfl⟩

/-- C87 (avoidance, in numbers).  Let `w` be `w_half`, or zero if `w_half < 10⁻¹⁰`.  No interval contains a limit or a
further frequency whose absolute value differs from `w` by less than `10⁻¹⁰`; all other frequencies between two split
points that keep a distance of more than `10⁻¹⁰` from those are covered. -/
theorem c87_numbers (vmin vmax wHalf : ℝ) (freqs : List ℝ) (cells : List (ℝ × ℝ))
    (h : intervalsT0 vmin vmax wHalf freqs = .ok cells) (w : ℝ)
    (hw : wHalf < 1 / 10 ^ 10 ∧ w = 0 ∨ 1 / 10 ^ 10 ≤ wHalf ∧ w = wHalf) :
    (∀ c ∈ cells, ∀ p, p = vmin ∨ p = vmax ∨ p = w ∨ p = -w ∨ p ∈ freqs ∨ -p ∈ freqs → |(|p| - w)| < 1 / 10 ^ 10 →
      ¬ (c.1 ≤ p ∧ p ≤ c.2)) ∧
    (∀ x, min vmin vmax ≤ x → x ≤ max vmin vmax →
      (∀ p, p = vmin ∨ p = vmax ∨ p = w ∨ p = -w ∨ p ∈ freqs ∨ -p ∈ freqs → |(|p| - w)| < 1 / 10 ^ 10 →
        1 / 10 ^ 10 < |x - p|) → ∃ c ∈ cells, c.1 ≤ x ∧ x ≤ c.2) := by
  have t : tolT0 = 1 / 10 ^ 10 := rfl
  have ew : effW wHalf = w := by
    unfold effW
    rcases hw with ⟨a, b⟩ | ⟨a, b⟩
    · rw [if_pos (by rw [t]; exact a), b]
    · rw [if_neg (by rw [t]; exact not_lt.2 a), b]
  have mem : ∀ p, p ∈ pointsT0 vmin vmax wHalf freqs ↔
      (p = vmin ∨ p = vmax ∨ p = w ∨ p = -w ∨ p ∈ freqs ∨ -p ∈ freqs) := by
    intro p
    unfold pointsT0
    have fl : p ∈ (freqs.flatMap fun x => [-1 * x, 1 * x]) ↔ p ∈ freqs ∨ -p ∈ freqs := by
      simp only [List.mem_flatMap, List.mem_cons, List.not_mem_nil, or_false]
      constructor
      · rintro ⟨x, hx, rfl | rfl⟩
        · right; simpa using hx
        · left; simpa using hx
      · rintro (a | a)
        · exact ⟨p, a, Or.inr (by ring)⟩
        · exact ⟨-p, a, Or.inl (by ring)⟩
    rw [List.mem_append, fl, ew]
    rcases hw with ⟨a, b⟩ | ⟨a, b⟩
    · rw [if_pos (by rw [t]; exact a), b]
      simp only [List.mem_cons, List.not_mem_nil, or_false, neg_zero]
      tauto
    · rw [if_neg (by rw [t]; exact not_lt.2 a), b]
      simp only [List.mem_cons, List.not_mem_nil, or_false]
      tauto
  refine ⟨fun c hc p hp hn => (c87_avoidance vmin vmax wHalf freqs cells h c hc p ((mem p).2 hp)).2 ?_, fun x h1 h2 hx => ?_⟩
  · unfold near; rw [ew, t]; exact hn
  · have m1 : min vmin vmax ∈ pointsT0 vmin vmax wHalf freqs := by
      rw [mem]; rcases min_choice vmin vmax with e | e <;> rw [e] <;> simp
    have m2 : max vmin vmax ∈ pointsT0 vmin vmax wHalf freqs := by
      rw [mem]; rcases max_choice vmin vmax with e | e <;> rw [e] <;> simp
    refine c87_coverage vmin vmax wHalf freqs cells h x _ _ m1 m2 h1 h2 fun y hy hn => ?_
    rw [t]
    refine hx y ((mem y).1 hy) ?_
    unfold near at hn; rw [ew, t] at hn; exact hn

end Verif.Quad
