import Verif.Outcome
import Mathlib.Data.List.Basic
import Mathlib.Tactic.Ring
import Mathlib.Tactic.Linarith

/-! General list lemmas used in several places. -/
namespace Verif

theorem length_flatMap_range (f : Nat → List α) (n s : Nat) (hlen : ∀ i < s, (f i).length = n) :
    ((List.range s).flatMap f).length = s * n := by
  induction s with
  | zero => simp
  | succ s ih =>
    rw [List.range_succ, List.flatMap_append, List.length_append, ih (fun i hi => hlen i (by omega))]
    simp [hlen s (by omega)]; ring

theorem getElem?_flatMap_range (f : Nat → List α) (n s i j : Nat) (hlen : ∀ i < s, (f i).length = n)
    (hi : i < s) (hj : j < n) : ((List.range s).flatMap f)[i * n + j]? = (f i)[j]? := by
  induction s with
  | zero => omega
  | succ s ih =>
    have hl := length_flatMap_range f n s (fun i hi => hlen i (by omega))
    rw [List.range_succ, List.flatMap_append]
    by_cases h : i = s
    · subst h
      rw [List.getElem?_append_right (by omega), hl]
      simp
    · have hlt : i * n + j < s * n := by
        have : (i + 1) * n ≤ s * n := Nat.mul_le_mul_right _ (by omega)
        rw [Nat.add_mul, Nat.one_mul] at this; omega
      rw [List.getElem?_append_left (by omega)]
      exact ih (fun i hi => hlen i (by omega)) (by omega)

theorem mapM_ok {f : α → Res β} {g : α → β} {l : List α} (h : ∀ x ∈ l, f x = .ok (g x)) :
    l.mapM f = .ok (l.map g) := by
  induction l with
  | nil => rfl
  | cons x xs ih =>
    rw [List.mapM_cons, h x (by simp), ih (fun y hy => h y (by simp [hy]))]
    rfl

theorem foldlM_ok {f : β → α → Res β} {g : β → α → β} {l : List α} (b : β)
    (h : ∀ b, ∀ x ∈ l, f b x = .ok (g b x)) : l.foldlM f b = .ok (l.foldl g b) := by
  induction l generalizing b with
  | nil => rfl
  | cons x xs ih =>
    rw [List.foldlM_cons, h b x (by simp), List.foldl_cons]
    exact ih _ (fun b y hy => h b y (by simp [hy]))

end Verif
