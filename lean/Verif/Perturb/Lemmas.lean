import Verif.Perturb.Spec
import Mathlib.Tactic.Ring
import Mathlib.Tactic.Abel

namespace Verif.Perturb
variable {A S : Type} [AddCommGroup A]

theorem Vtx.ext' {x y : Vtx A} (h : x.irred = y.irred) (h' : ∀ c k, x.red c k = y.red c k) : x = y := by
  cases x; cases y; simp only [Vtx.mk.injEq] at *; exact ⟨h, funext fun c => funext fun k => h' c k⟩

theorem zero_plus (x : Vtx A) : Vtx.zero.plus x = x := Vtx.ext' (zero_add _) (fun _ _ => zero_add _)

theorem bub_zl {N : Numerics A S} (E : Exact N) (ch k z) : N.bubble ch k Vtx.zero z = 0 := by
  have := E.addl ch k Vtx.zero Vtx.zero z
  rw [zero_plus] at this
  exact left_eq_add.mp this

theorem bub_zr {N : Numerics A S} (E : Exact N) (ch k z) : N.bubble ch k z Vtx.zero = 0 := by
  have := E.addr ch k Vtx.zero Vtx.zero z
  rw [zero_plus] at this
  exact left_eq_add.mp this

/-- The expansion solves the Bethe–Salpeter equations at every order. -/
theorem order_bse {N : Numerics A S} (E : Exact N) (n : Nat) (ch : Ch) (k : Cls) :
    (order N n).red ch k =
      ∑ ij ∈ Finset.antidiagonal n, N.bubble ch k (irreducibleIn ch (order N ij.1)) (order N ij.2) := by
  have z0 : irreducibleIn ch (Vtx.zero : Vtx A) = Vtx.zero := by
    exact Vtx.ext' rfl (fun c k => by simp [irreducibleIn, Vtx.zero])
  have z1 : order N 0 = (Vtx.zero : Vtx A) := by rw [order]
  match n with
  | 0 => simp [z0, z1, bub_zl E]; rfl
  | 1 =>
    rw [Finset.Nat.antidiagonal_succ]
    simp [z0, z1, bub_zl E, bub_zr E]
    rw [order]
  | n + 2 =>
    rw [Finset.Nat.sum_antidiagonal_eq_sum_range_succ_mk, Finset.sum_range_succ, Finset.sum_range_succ']
    simp only [z1, z0, bub_zl E, add_zero, Nat.sub_self, bub_zr E]
    rw [order, ← Fin.sum_univ_eq_sum_range (fun i => N.bubble ch k (irreducibleIn ch (order N (i + 1)))
      (order N (n + 2 - (i + 1)))) (n + 1)]
    dsimp only
    refine Finset.sum_congr rfl fun i _ => ?_
    have : n + 2 - (i.1 + 1) = n + 1 - i.1 := by omega
    rw [this]

/-- The bare vertex. -/
def bareV (N : Numerics A S) : Vtx A := ⟨N.bare, fun _ _ => 0⟩

theorem order_one (N : Numerics A S) : order N 1 = bareV N := by rw [order]; rfl

theorem irr_bare (N : Numerics A S) (ch) : irreducibleIn ch (bareV N) = bareV N :=
  Vtx.ext' rfl (fun c k => by simp [irreducibleIn, bareV])

theorem order_two (N : Numerics A S) (ch k) : (order N 2).red ch k = N.bubble ch k (bareV N) (bareV N) := by
  rw [order]
  simp [order_one, irr_bare, one_nsmul]

theorem order_two_irred (N : Numerics A S) : (order N 2).irred = 0 := by rw [order]
theorem order_three_irred (N : Numerics A S) : (order N 3).irred = 0 := by rw [order]
theorem order_four_irred (N : Numerics A S) : (order N 4).irred = 0 := by rw [order]

theorem order_three (N : Numerics A S) (ch k) : (order N 3).red ch k =
    N.bubble ch k (bareV N) (order N 2) + N.bubble ch k (irreducibleIn ch (order N 2)) (bareV N) := by
  rw [order]
  simp [Fin.sum_univ_two, order_one, irr_bare]

theorem upTo_three (N : Numerics A S) (ch k) :
    (upTo N 3).red ch k = (order N 2).red ch k + (order N 3).red ch k := by
  simp only [upTo, Vtx.plus, Nat.zero_add, Nat.reduceAdd, order_one]
  simp [Vtx.zero, bareV]

theorem order_four (N : Numerics A S) (ch k) : (order N 4).red ch k =
    N.bubble ch k (bareV N) (order N 3) + N.bubble ch k (irreducibleIn ch (order N 2)) (order N 2) +
      N.bubble ch k (irreducibleIn ch (order N 3)) (bareV N) := by
  rw [order]
  simp [Fin.sum_univ_three, order_one, irr_bare]

theorem two_classes {N : Numerics A S} (E : Exact N) (ch k) (hk : k ≠ .k1) : (order N 2).red ch k = 0 := by
  rw [order_two]
  cases k with
  | k1 => exact absurd rfl hk
  | k2 => exact E.sameLeft _ _ _ _ (fun _ _ _ => rfl) (.inl rfl)
  | k2b => exact E.sameRight _ _ _ _ (fun _ _ _ => rfl) (.inl rfl)
  | k3 => exact E.sameLeft _ _ _ _ (fun _ _ _ => rfl) (.inr rfl)

/-- Only the part of a vertex in one channel. -/
def only (ch : Ch) (x : Vtx A) : Vtx A := ⟨0, fun c k => if c = ch then x.red c k else 0⟩

theorem two_split (N : Numerics A S) (ch) : order N 2 = (only ch (order N 2)).plus (irreducibleIn ch (order N 2)) := by
  refine Vtx.ext' ?_ ?_
  · simp [only, Vtx.plus, irreducibleIn, order_two_irred]
  · intro c k; simp only [only, Vtx.plus, irreducibleIn]; split_ifs <;> simp

theorem computed_all (debug : Bool) (k : Cls) : computed debug (true, true, true) k = (debug || k != .k2b) := by
  cases k <;> cases debug <;> rfl

theorem bubble_fresh {N : Numerics A S} (E : Exact N) (debug : Bool) (ch : Ch) :
    bubbleFunction N debug (Vtx.zero.init 0) (bareV N) (bareV N) ch = only ch (order N 2) := by
  refine Vtx.ext' rfl ?_
  intro c k
  simp only [bubbleFunction, only, Vtx.zero, Vtx.init, computed_all]
  by_cases hc : c = ch
  · subst hc
    simp only [true_and, if_true]
    split_ifs with h
    · rw [order_two]
    · rw [two_classes E]
      rintro rfl
      exact h (by cases debug <;> rfl)
  · simp [hc]

theorem bare_vertex [Zero S] (N : Numerics A S) : (bareState N).vertex = bareV N := rfl

end Verif.Perturb
