import Verif.Vec.Model
import Mathlib.Tactic.Linarith
import Mathlib.Algebra.Order.Field.Rat
import Mathlib.Algebra.BigOperators.Group.List.Basic

/-! C07, C08: arithmetic of the vector class. -/
namespace Verif.Vec
open Verif

private theorem fill_eq (zero : γ) (f : Nat → Res γ) (out : List γ) (order : List Nat) (n : Nat)
    (hn : out.length = n)
    (hp : order.Perm (List.range n)) (hf : ∀ i (h : i < n), f i = .ok (out[i]'(by omega))) :
    runLoop (fun i _ => f i) order (List.replicate n zero) = .ok out := by
  rw [runLoop_perm (fun i _ => f i) (fun i _ => out.getD i zero) _ _ (by simpa using hp)
    (fun i h => by
      have h : i < n := by simpa using h
      rw [hf i h]; simp [List.getD, List.getElem?_eq_getElem (show i < out.length by omega)])]
  congr 1
  apply List.ext_getElem
  · simp [hn]
  · intro i h1 h2; simp [List.getD, h2]

/-- C07: vector op vector acts entry by entry (`+`, `-`, `*`, `/`). -/
theorem c07_elementwise (zero : γ) (op : α → β → γ) (lhs : List α) (rhs : List β)
    (h : lhs.length = rhs.length) : elementwise zero op lhs rhs = .ok (List.zipWith op lhs rhs) := by
  unfold elementwise
  rw [if_neg (by omega)]
  apply fill_eq zero _ _ _ _ (by simp [h]) (List.Perm.refl _)
  intro i hi
  simp [List.getElem?_eq_getElem hi, List.getElem?_eq_getElem (show i < rhs.length by omega)]

/-- C07: lengths that differ raise an error; nothing else does. -/
theorem c07_elementwise_mismatch (zero : γ) (op : α → β → γ) (lhs : List α) (rhs : List β) :
    elementwise zero op lhs rhs = .error .exception ↔ lhs.length ≠ rhs.length := by
  constructor
  · intro h hl
    rw [c07_elementwise zero op lhs rhs hl] at h; cases h
  · intro h; simp [elementwise, h]

/-- C07: the compound assignments act entry by entry. -/
theorem c07_elementwise_assign (op : α → β → α) (self : List α) (rhs : List β)
    (h : rhs.length = self.length) :
    elementwiseAssign op self rhs = .ok (List.zipWith op self rhs) := by
  unfold elementwiseAssign
  rw [if_neg (by omega)]
  rw [runLoop_perm _ (fun i x => match rhs[i]? with | some y => op x y | none => x) _ _
    (List.Perm.refl _)
    (fun i hi => by simp [List.getElem?_eq_getElem (show i < rhs.length by omega)])]
  congr 1
  apply List.ext_getElem
  · simp [h]
  · intro i h1 h2
    have : i < rhs.length := by simp at h1; omega
    simp [List.getElem?_eq_getElem this]

theorem c07_elementwise_assign_mismatch (op : α → β → α) (self : List α) (rhs : List β) :
    elementwiseAssign op self rhs = .error .exception ↔ rhs.length ≠ self.length := by
  constructor
  · intro h hl
    rw [c07_elementwise_assign op self rhs hl] at h; cases h
  · intro h; simp [elementwiseAssign, h]

/-- C07: an operand that aliases the target (`x += x`) is handled like a copy. -/
theorem c07_self_assign (op : α → α → α) (self : List α) :
    elementwiseAssignSelf op self = elementwiseAssign op self self := by
  rw [c07_elementwise_assign op self self rfl]
  unfold elementwiseAssignSelf
  rw [runLoop_perm _ (fun _ x => op x x) _ _ (List.Perm.refl _) (fun _ _ => rfl)]
  congr 1
  apply List.ext_getElem <;> simp

/-- C07: operations with a constant. -/
theorem c07_scalar (zero : γ) (op : α → β → γ) (lhs : List α) (c : β) :
    scalarMap zero op lhs c = .ok (lhs.map (op · c)) := by
  unfold scalarMap
  apply fill_eq zero _ _ _ _ (by simp) (List.Perm.refl _)
  intro i hi; simp [hi]

theorem c07_scalar_assign (op : α → β → α) (self : List α) (c : β) :
    scalarAssign op self c = .ok (self.map (op · c)) := by
  unfold scalarAssign
  rw [runLoop_perm _ (fun _ x => op x c) _ _ (List.Perm.refl _) (fun _ _ => rfl)]
  congr 1
  apply List.ext_getElem <;> simp

/-- C07: constant minus vector has the constant on the left. -/
theorem c07_const_minus [Zero α] [Sub α] (c : α) (v : List α) :
    constMinus c v = .ok (v.map (c - ·)) := by
  unfold constMinus; rw [c07_scalar]

theorem c07_transform (zero : β) (op : α → β) (v : List α) : transformVec zero op v = .ok (v.map op) := by
  unfold transformVec
  apply fill_eq zero _ _ _ _ (by simp) (List.Perm.refl _)
  intro i hi; simp [hi]

/-- C07: the parallel entrywise operations give the entrywise result for every order of the iterations. -/
theorem c07_abs_any_schedule (zero : β) (absf : α → β) (order : List Nat) (v : List α)
    (hp : order.Perm (List.range v.length)) : absPar zero absf order v = .ok (v.map absf) := by
  unfold absPar
  apply fill_eq zero _ _ _ _ (by simp) hp
  intro i hi; simp [hi]

theorem c07_add_const_any_schedule [Add α] (order : List Nat) (v : List α) (c : α)
    (hp : order.Perm (List.range v.length)) : addConstPar order v c = .ok (v.map (· + c)) := by
  unfold addConstPar
  rw [runLoop_perm _ (fun _ x => x + c) _ _ hp (fun _ _ => rfl)]
  congr 1
  apply List.ext_getElem <;> simp

/-- Position in a vector of length `n` denoted by an index that counts from the end if negative. -/
def position (n : Nat) (i : Int) : Int := if i < 0 then n + i else i

/-- C07: the subvector accessor returns the entries from position `i1` to position `i2`, both included. -/
theorem c07_subvector (v : List α) (i1 i2 : Int) (h0 : 0 ≤ position v.length i1)
    (h1 : position v.length i1 ≤ position v.length i2) (h2 : position v.length i2 < v.length) :
    ∃ out, subvec v i1 i2 = .ok out ∧
      (out.length : Int) = position v.length i2 - position v.length i1 + 1 ∧
      ∀ k : Nat, (k : Int) ≤ position v.length i2 - position v.length i1 →
        out[k]? = v[(position v.length i1).toNat + k]? := by
  have ea : (if 0 ≤ i1 then (0:Int) else v.length) + i1 = position v.length i1 := by
    unfold position; split <;> split <;> omega
  have eb : (if 0 ≤ i2 then (0:Int) else v.length) + i2 + 1 = position v.length i2 + 1 := by
    unfold position; split <;> split <;> omega
  refine ⟨(v.drop (position v.length i1).toNat).take (position v.length i2 + 1 - position v.length i1).toNat,
    ?_, ?_, ?_⟩
  · unfold subvec; simp only [ea, eb]; rw [if_pos (by omega)]
  · simp only [List.length_take, List.length_drop]; omega
  · intro k hk
    rw [List.getElem?_take_of_lt (by omega), List.getElem?_drop]

/-- C07: every other index pair except the empty range is undefined behaviour, not a reported error. -/
theorem c07_subvector_undefined (v : List α) (i1 i2 : Int)
    (h : position v.length i1 < 0 ∨ position v.length i2 + 1 < position v.length i1 ∨
      (v.length : Int) ≤ position v.length i2) : subvec v i1 i2 = .error .undefined := by
  have ea : (if 0 ≤ i1 then (0:Int) else v.length) + i1 = position v.length i1 := by
    unfold position; split <;> split <;> omega
  have eb : (if 0 ≤ i2 then (0:Int) else v.length) + i2 + 1 = position v.length i2 + 1 := by
    unfold position; split <;> split <;> omega
  unfold subvec; simp only [ea, eb]; rw [if_neg (by omega)]

/-- C07: adjacent differences. -/
theorem c07_diff [Zero α] [Sub α] (v : List α) (h : v ≠ []) :
    ∃ out, diff v = .ok out ∧ out.length = v.length - 1 ∧
      ∀ i (hi : i + 1 < v.length), out[i]? = some (v[i + 1] - v[i]) := by
  unfold diff
  rw [if_neg (by simpa using h), c07_elementwise _ _ _ _ (by simp)]
  refine ⟨_, rfl, by simp, ?_⟩
  intro i hi
  rw [List.getElem?_eq_getElem (by simp; omega)]
  simp [Nat.add_comm 1 i]

/-- The differences of an empty vector are undefined behaviour. -/
theorem c07_diff_empty [Zero α] [Sub α] : diff ([] : List α) = .error .undefined := rfl

/-- C07: `sum` adds all entries. -/
theorem c07_sum [AddCommMonoid α] (v : List α) : sum v = v.sum := by
  have h : ∀ (l : List α) (a : α), l.foldl (· + ·) a = a + l.sum := by
    intro l; induction l with
    | nil => simp
    | cons x xs ih => intro a; rw [List.foldl_cons, ih, List.sum_cons, add_assoc]
  rw [sum, h, zero_add]

private theorem maxFold (absf : α → ℚ) (v : List α) (a : ℚ) :
    a ≤ v.foldl (fun out x => max out (absf x)) a ∧
    (∀ x ∈ v, absf x ≤ v.foldl (fun out x => max out (absf x)) a) ∧
    (v.foldl (fun out x => max out (absf x)) a = a ∨
      ∃ x ∈ v, v.foldl (fun out x => max out (absf x)) a = absf x) := by
  induction v generalizing a with
  | nil => simp
  | cons x xs ih =>
    obtain ⟨h1, h2, h3⟩ := ih (max a (absf x))
    simp only [List.foldl_cons]
    refine ⟨le_trans (le_max_left _ _) h1, ?_, ?_⟩
    · intro y hy
      rcases List.mem_cons.1 hy with rfl | hy
      · exact le_trans (le_max_right _ _) h1
      · exact h2 y hy
    · rcases h3 with h3 | ⟨y, hy, h3⟩
      · rcases max_choice a (absf x) with hm | hm
        · left; rw [h3, hm]
        · right; exact ⟨x, by simp, by rw [h3, hm]⟩
      · right; exact ⟨y, by simp [hy], h3⟩

/-- C07: the maximum norm is an upper bound that is attained (0 for the empty vector). -/
theorem c07_max_norm (absf : α → ℚ) (v : List α) (hpos : ∀ x, 0 ≤ absf x) :
    (∀ x ∈ v, absf x ≤ maxNorm absf v) ∧
    (v = [] → maxNorm absf v = 0) ∧ (v ≠ [] → ∃ x ∈ v, maxNorm absf v = absf x) := by
  obtain ⟨h1, h2, h3⟩ := maxFold absf v 0
  refine ⟨h2, fun h => by simp [maxNorm, h], ?_⟩
  intro hv
  rcases h3 with h3 | h3
  · obtain ⟨x, hx⟩ := List.exists_mem_of_ne_nil v hv
    refine ⟨x, hx, le_antisymm ?_ (h2 x hx)⟩
    rw [maxNorm, h3]; exact hpos x
  · exact h3

/-- C07 is false for one documented entry point: the "imaginary part" of a real vector is the vector itself,
while the comment of `imag()` promises zeros. -/
theorem c07_imag_of_real_refuted :
    ¬ ∀ v : List ℚ, transformVec 0 myimagDouble v = .ok (v.map fun _ => 0) := by
  intro h
  have := h [1]
  rw [c07_transform] at this
  simp [myimagDouble] at this

/-- C08 is false: for every vector, every complex factor and every schedule the result of vector times
complex number is the zero vector. -/
theorem c08_result_is_zero [MulZeroClass α] (order : List Nat) (lhs : List α) (rhs : α)
    (hp : order.Perm (List.range lhs.length)) :
    mulComp order lhs rhs = .ok (List.replicate lhs.length 0) := by
  unfold mulComp
  rw [runLoop_perm _ (fun i r => match lhs[i]? with | some x => r * (x * rhs) | none => r) _ _
    (by simpa using hp) (fun i hi => by
      have : i < lhs.length := by simpa using hi
      simp [this])]
  congr 1
  apply List.ext_getElem
  · simp
  · intro i h1 h2
    have : i < lhs.length := by simpa using h2
    simp [this]

theorem c08_scaling_refuted :
    ¬ ∀ (order : List Nat) (lhs : List ℂ) (rhs : ℂ), order.Perm (List.range lhs.length) →
      mulComp order lhs rhs = .ok (lhs.map (· * rhs)) := by
  intro h
  have := h [0] [1] 1 (by simp)
  rw [c08_result_is_zero [0] [1] (1 : ℂ) (by simp)] at this
  simp at this

/-- C08, what holds: the product is right exactly when all products vanish. -/
theorem c08_scaling_partial [MulZeroClass α] (order : List Nat) (lhs : List α) (rhs : α)
    (hp : order.Perm (List.range lhs.length)) :
    mulComp order lhs rhs = .ok (lhs.map (· * rhs)) ↔ ∀ x ∈ lhs, x * rhs = 0 := by
  rw [c08_result_is_zero order lhs rhs hp]
  constructor
  · intro h x hx
    injection h with h
    have : x * rhs ∈ List.replicate lhs.length (0 : α) := by
      rw [h]; exact List.mem_map.2 ⟨x, hx, rfl⟩
    exact (List.mem_replicate.1 this).2
  · intro h
    congr 1
    rw [List.map_congr_left h, List.map_const']

example : elementwise (0 : ℚ) (· - ·) [1, 2] [3, 5] = .ok [-2, -3] := by decide +kernel
example : elementwise (0 : ℚ) (· - ·) [1, 2] [3] = .error .exception := by decide +kernel
example : subvec [1, 2, 3, 4] 1 (-2) = .ok [2, 3] := by decide +kernel
example : (position 4 1, position 4 (-2)) = (1, 2) := by decide
example : ([1, 0] : List Nat).Perm (List.range [5, 6].length) := by decide
example : diff ([1, 4, 9] : List ℚ) = .ok [3, 5] := by decide +kernel

end Verif.Vec
