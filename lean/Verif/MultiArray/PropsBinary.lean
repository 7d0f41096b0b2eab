import Verif.MultiArray.Binary
import Verif.MultiArray.Lemmas
import Mathlib.Algebra.Ring.Basic

/-! # C185: operations between arrays, and comparison -/
namespace Verif.MultiArray
open Verif Verif.Index

theorem mapM_ok {ε ι δ : Type} (f : ι → Except ε δ) (g : ι → δ) : ∀ l : List ι, (∀ i ∈ l, f i = .ok (g i)) → l.mapM f = .ok (l.map g)
  | [], _ => rfl
  | i :: l, h => by
    rw [List.mapM_cons, h i (by simp), mapM_ok f g l fun j hj => h j (by simp [hj])]
    rfl

/-- An array filled by position. -/
theorem represents_of {dims : List Nat} (hd : dims ≠ []) {γ : Type} (els : List γ) (hl : els.length = dims.prod) (s : List Nat → γ)
    (h : ∀ idx, InRange idx dims → els[rowMajor idx dims]? = some (s idx)) :
    Represents { len := dims, cum := cumulLength dims, elems := els } dims s :=
  ⟨⟨hd, hl, rfl⟩, rfl, fun idx hi => (at_eq_iff (m := { len := dims, cum := cumulLength dims, elems := els }) ⟨hd, hl, rfl⟩ hi _).2 (h idx hi)⟩

variable {α β γ ρ : Type}

/-- **C185** (arrays). The result of an operation between two arrays of the same shape, also of different element types, is the array of that shape whose
elements are the results for the elements. -/
theorem c185_elementwise (op : α → β → γ) {l : MArr α} {r : MArr β} {dims : List Nat} {s : List Nat → α} {u : List Nat → β} (hl : Represents l dims s)
    (hr : Represents r dims u) : ∃ m, l.elementwise op r = .ok m ∧ Represents m dims fun idx => op (s idx) (u idx) := by
  obtain ⟨wl, rfl, al⟩ := hl
  obtain ⟨wr, er, ar⟩ := hr
  have lr : r.elems.length = l.elems.length := by rw [wr.2.1, er, wl.2.1]
  have fs : flatSize l.len = l.elems.length := by rw [flatSize_eq, wl.2.1]
  have key : (List.range (flatSize l.len)).mapM (fun i => do
      let x ← l.elem i
      let y ← r.elem i
      return op x y) = .ok (List.zipWith op l.elems r.elems) := by
    by_cases h0 : l.elems.length = 0
    · have e1 := List.eq_nil_of_length_eq_zero h0
      rw [fs, h0, e1]; rfl
    · have hx : 0 < l.elems.length := Nat.pos_of_ne_zero h0
      rw [mapM_ok _ (fun i => op (l.elems.getD i (l.elems[0])) (r.elems.getD i (r.elems[0]'(by omega))))]
      · congr 1
        apply List.ext_getElem
        · simp [fs, lr]
        · intro i h1 h2
          have h3 : i < l.elems.length := by simpa [fs] using h1
          have h4 : i < r.elems.length := by omega
          simp [h3, h4]
      · intro i hi
        have h3 : i < l.elems.length := by rw [← fs]; exact List.mem_range.1 hi
        have h4 : i < r.elems.length := by omega
        simp [MArr.elem, h3, h4]; rfl
  refine ⟨_, by rw [MArr.elementwise, if_neg (by simpa using er.symm), key]; rfl, ?_⟩
  refine represents_of wl.1 _ (by simp [lr, wl.2.1]) _ fun idx hi => ?_
  have h1 := (at_eq_iff wl hi _).1 (al idx hi)
  have h2 := (at_eq_iff wr (er ▸ hi) _).1 (ar idx hi)
  rw [er] at h2
  rw [List.getElem?_zipWith, h1, h2]

/-- **C185** (mismatch, partial). Arrays of different shapes raise an error that can be caught, whatever their contents, if the result has another element type. -/
theorem c185_mismatch_partial (op : α → β → γ) (l : MArr α) (r : MArr β) (h : l.len ≠ r.len) : l.elementwise op r = .error .exception := if_pos h

/-- **C185** (mismatch, refuted). That error can be caught only if the result has another element type: otherwise the program is stopped by an assertion. -/
theorem c185_mismatch_refuted : ∃ l r : MArr Nat, l.len ≠ r.len ∧ l.elementwise (fun (x y : Nat) => ((x + y : Nat) : Int)) r = .error .exception ∧
    l.binarySame (· + ·) r = .error .assertion := ⟨⟨[2], [1], [1, 2]⟩, ⟨[1], [1], [1]⟩, by decide, rfl, rfl⟩

/-- **C185** (same type). If the result has the element type of the left operand, arrays of one shape give the same array as the general operation. -/
theorem c185_same_type (op : α → α → α) {l r : MArr α} {dims : List Nat} {s u : List Nat → α} (hl : Represents l dims s) (hr : Represents r dims u) :
    ∃ m, l.binarySame op r = .ok m ∧ Represents m dims fun idx => op (s idx) (u idx) := by
  obtain ⟨wl, rfl, al⟩ := hl
  obtain ⟨wr, er, ar⟩ := hr
  have lr : r.elems.length = l.elems.length := by rw [wr.2.1, er, wl.2.1]
  obtain ⟨len, cum, els⟩ := l
  obtain ⟨w1, w2, w3⟩ := wl
  simp only at w1 w2 w3 er lr al ⊢
  subst w3
  refine ⟨⟨len, cumulLength len, List.zipWith op els r.elems⟩, by simp [MArr.binarySame, MArr.zipAssign, er], ?_⟩
  refine represents_of w1 _ (by simp [lr, w2]) _ fun idx hi => ?_
  have h1 := (at_eq_iff (m := ⟨len, cumulLength len, els⟩) ⟨w1, w2, rfl⟩ hi _).1 (al idx hi)
  have h2 := (at_eq_iff wr (er ▸ hi) _).1 (ar idx hi)
  rw [er] at h2
  simp only at h1
  rw [List.getElem?_zipWith, h1, h2]

/-- **C185** (scalar on the right). -/
theorem c185_scalar (op : α → ρ → γ) {l : MArr α} {dims : List Nat} {s : List Nat → α} (hl : Represents l dims s) (c : ρ) :
    ∃ m, l.scalarMap op c = .ok m ∧ Represents m dims fun idx => op (s idx) c := by
  obtain ⟨m, h1, h2⟩ := c185_elementwise (fun x _ => op x c) hl hl
  obtain ⟨wl, rfl, al⟩ := hl
  refine ⟨m, ?_, h2⟩
  rw [← h1, MArr.elementwise, if_neg (by simp), MArr.scalarMap]
  congr 2
  funext i
  cases h : l.elem i <;> rfl

/-- **C185** (scalar on the left). The operands are not exchanged. -/
theorem c185_scalar_left (op : ρ → α → γ) {r : MArr α} {dims : List Nat} {s : List Nat → α} (hr : Represents r dims s) (c : ρ) :
    ∃ m, MArr.scalarLeft op c r = .ok m ∧ Represents m dims fun idx => op c (s idx) := c185_scalar (fun x c => op c x) hr c

/-- **C185** (minus). -/
theorem c185_minus {α : Type} [Ring α] {r : MArr α} {dims : List Nat} {s : List Nat → α} (hr : Represents r dims s) :
    ∃ m, r.neg = .ok m ∧ Represents m dims fun idx => -s idx := by
  obtain ⟨m, h1, h2⟩ := c185_scalar_left (fun c x : α => c * x) hr (-1)
  exact ⟨m, h1, by simpa using h2⟩

/-- Every position of an array belongs to an index. -/
theorem exists_index : ∀ (dims : List Nat) (k : Nat), k < dims.prod → ∃ idx, InRange idx dims ∧ rowMajor idx dims = k
  | [], k, h => ⟨[], List.Forall₂.nil, by simp at h; simp [rowMajor, h]⟩
  | d :: ds, k, h => by
    rw [List.prod_cons] at h
    have pos : 0 < ds.prod := Nat.pos_of_ne_zero fun e => by rw [e] at h; simp at h
    obtain ⟨idx, h1, h2⟩ := exists_index ds (k % ds.prod) (Nat.mod_lt _ pos)
    refine ⟨k / ds.prod :: idx, List.Forall₂.cons (Nat.div_lt_of_lt_mul (by rwa [Nat.mul_comm] at h)) h1, ?_⟩
    rw [rowMajor, h2, Nat.mul_comm]
    exact Nat.div_add_mod k ds.prod

/-- **C185** (comparison). Two arrays compare equal exactly if they have the same shape and the same element at every index; arrays of different shapes can be
compared. -/
theorem c185_equal [DecidableEq α] {l r : MArr α} {dims dims' : List Nat} {s u : List Nat → α} (hl : Represents l dims s) (hr : Represents r dims' u) :
    ∃ b, l.equal r = .ok b ∧ (b = true ↔ dims = dims' ∧ ∀ idx, InRange idx dims → s idx = u idx) := by
  obtain ⟨wl, rfl, al⟩ := hl
  obtain ⟨wr, rfl, ar⟩ := hr
  unfold MArr.equal
  by_cases e : l.len = r.len
  · have lr : l.elems.length = r.elems.length := by rw [wr.2.1, ← e, wl.2.1]
    rw [if_pos e, if_pos lr]
    refine ⟨_, rfl, ?_⟩
    have eq : (List.zipWith (fun x y => decide (x = y)) l.elems r.elems).all id = true ↔ l.elems = r.elems := by
      have gen : ∀ a b : List α, a.length = b.length → ((List.zipWith (fun x y => decide (x = y)) a b).all id = true ↔ a = b) := by
        intro a
        induction a with
        | nil => intro b h; cases b <;> simp_all
        | cons x a ih =>
          intro b h
          cases b with
          | nil => simp at h
          | cons y b => simp [ih b (by simpa using h)]
      exact gen _ _ lr
    rw [eq]
    constructor
    · intro h
      refine ⟨e, fun idx hi => ?_⟩
      have h1 := (at_eq_iff wl hi _).1 (al idx hi)
      have h2 := (at_eq_iff wr (e ▸ hi) _).1 (ar idx (e ▸ hi))
      rw [← e, ← h, h1] at h2
      exact Option.some.inj h2
    · rintro ⟨-, h⟩
      apply List.ext_getElem?
      intro k
      by_cases hk : k < l.elems.length
      · obtain ⟨idx, hi, rfl⟩ := exists_index l.len k (by rw [← wl.2.1]; exact hk)
        have h1 := (at_eq_iff wl hi _).1 (al idx hi)
        have h2 := (at_eq_iff wr (e ▸ hi) _).1 (ar idx (e ▸ hi))
        rw [← e] at h2
        rw [h1, h2, h idx hi]
      · rw [List.getElem?_eq_none (by omega), List.getElem?_eq_none (by omega)]
  · rw [if_neg e]
    exact ⟨false, rfl, by simp [e]⟩

/-- Numbers of different types: an array of integers times one of natural numbers, and a scalar minus an array. -/
example : (MArr.elementwise (fun (x : Int) (y : Nat) => x * y) ⟨[2, 2], [2, 1], [1, -2, 3, 4]⟩ ⟨[2, 2], [2, 1], [1, 2, 3, 4]⟩).toOption.map MArr.elems = some [1, -4, 9, 16] ∧
    (MArr.scalarLeft (fun (c x : Int) => c - x) 10 ⟨[2, 2], [2, 1], [1, -2, 3, 4]⟩).toOption.map MArr.elems = some [9, 12, 7, 6] := by decide

example : Represents (⟨[2, 2], [2, 1], [5, 5, 5, 5]⟩ : MArr Nat) [2, 2] (fun _ => 5) :=
  represents_of (by simp) _ rfl _ fun idx hi => by
    have e : rowMajor idx [2, 2] < 4 := rowMajor_lt hi
    generalize rowMajor idx [2, 2] = k at e
    match k, e with
    | 0, _ => rfl
    | 1, _ => rfl
    | 2, _ => rfl
    | 3, _ => rfl

end Verif.MultiArray
