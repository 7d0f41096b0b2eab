import Verif.Layout.Lemmas
import Mathlib.Tactic.Linarith

/-! C128 for imaginary frequencies at finite temperature: vectorised over the fermionic frequencies. -/
namespace Verif.Layout
open Verif Verif.Index

variable {α : Type}

/-- The sum that belongs into an entry: the fermionic grid point `iv` of `2 m` points is the frequency
`2 (iv - m) + 1` (in units of `π T`), so `S i j` with `i = iv - m`, `j = ivp - m`. -/
def wanted (cls : Cls) (m : Nat) (S : ℤ → ℤ → α) (iv ivp : Nat) : α :=
  match cls with
  | .k1 => S 0 0
  | .k2 => S ((iv : ℤ) - m) 0
  | .k2b => S 0 ((ivp : ℤ) - m)
  | .k3 => S ((iv : ℤ) - m) ((ivp : ℤ) - m)

/-- Entries that are calculated: with symmetries only negative first fermionic frequencies. -/
def inHalf (cls : Cls) (dbg : Bool) (m iv ivp : Nat) : Prop :=
  match cls with
  | .k1 => True
  | .k2 => dbg = true ∨ iv < m
  | .k2b => dbg = true ∨ ivp < m
  | .k3 => dbg = true ∨ iv < m

instance (cls : Cls) (dbg : Bool) (m iv ivp : Nat) : Decidable (inHalf cls dbg m iv ivp) := by
  cases cls <;> unfold inHalf <;> infer_instance

/-- The vectorised extents of a class. -/
def vecShape (cls : Cls) (n : Nat) : List Nat :=
  match cls with
  | .k1 => []
  | .k2 => [n]
  | .k2b => [n]
  | .k3 => [n, n]

/-- The indices along them. -/
def vecIndex (cls : Cls) (iv ivp : Nat) : List Nat :=
  match cls with
  | .k1 => []
  | .k2 => [iv]
  | .k2b => [ivp]
  | .k3 => [iv, ivp]

theorem storeMatsubara_spec [Zero α] (cls : Cls) (dbg : Bool) (m : Nat) (S : ℤ → ℤ → α) :
    ∃ l, storeMatsubara cls dbg (2 * m : Nat) (vecShape cls (2 * m)).prod S = .ok l ∧
      l.length = (vecShape cls (2 * m)).prod ∧
      ∀ iv < 2 * m, ∀ ivp < 2 * m, l[rowMajor (vecIndex cls iv ivp) (vecShape cls (2 * m))]? =
        some (if inHalf cls dbg m iv ivp then wanted cls m S iv ivp else 0) := by
  have hd1 : Int.tdiv (-((2 * m : Nat) : ℤ)) 2 = -(m : ℤ) := by
    rw [Int.neg_tdiv, Int.tdiv_eq_ediv_of_nonneg (by omega)]; omega
  have hd2 : Int.tdiv ((2 * m : Nat) : ℤ) 2 = (m : ℤ) := by
    rw [Int.tdiv_eq_ediv_of_nonneg (by omega)]; omega
  unfold storeMatsubara
  dsimp only
  generalize hr : ranges cls dbg ((2 * m : Nat) : ℤ) = r
  obtain ⟨a, b, a', b', N⟩ := r
  dsimp only
  have mem : ∀ w : ℤ × α, w ∈ ((intRange a b).flatMap fun i => (intRange a' b').map fun j =>
      ((-a + i) * N + (-a' + j), S i j)) ↔
      ∃ i, a ≤ i ∧ i ≤ b ∧ ∃ j, a' ≤ j ∧ j ≤ b' ∧ w = ((-a + i) * N + (-a' + j), S i j) := by
    intro w
    simp only [List.mem_flatMap, List.mem_map, mem_intRange, and_assoc, eq_comm]
  -- bounds
  have hb : ∀ i, a ≤ i → i ≤ b → ∀ j, a' ≤ j → j ≤ b' → 0 ≤ (-a + i) * N + (-a' + j) ∧
      (-a + i) * N + (-a' + j) < ((vecShape cls (2 * m)).prod : Nat) ∧ -a' + j < N := by
    intro i h1 h2 j h3 h4
    unfold ranges at hr
    rw [hd1, hd2] at hr
    have htop : (if dbg = true then (m : ℤ) - 1 else -1) ≤ m - 1 := by split <;> omega
    cases cls <;> simp only [Prod.mk.injEq] at hr <;> obtain ⟨rfl, rfl, rfl, rfl, rfl⟩ := hr <;>
      simp only [vecShape, List.prod_cons, List.prod_nil, Nat.mul_one] <;> push_cast
    · omega
    · omega
    · have hi : i = 0 := by omega
      subst hi
      omega
    · have h5 : - -(m : ℤ) + i ≤ 2 * m - 1 := by omega
      have h6 : 0 ≤ - -(m : ℤ) + i := by omega
      refine ⟨by have := mul_nonneg h6 (by omega : (0 : ℤ) ≤ 2 * m); omega, ?_, by omega⟩
      have := mul_le_mul_of_nonneg_right h5 (by omega : (0 : ℤ) ≤ 2 * m)
      have e : (2 * (m : ℤ) - 1) * (2 * m) = 2 * m * (2 * m) - 2 * m := by ring
      omega
  have inj : ∀ i, a ≤ i → i ≤ b → ∀ j, a' ≤ j → j ≤ b' → ∀ i', a ≤ i' → i' ≤ b → ∀ j', a' ≤ j' → j' ≤ b' →
      (-a + i) * N + (-a' + j) = (-a + i') * N + (-a' + j') → i = i' ∧ j = j' := by
    intro i h1 h2 j h3 h4 i' h1' h2' j' h3' h4' e
    have hN := (hb i h1 h2 j h3 h4).2.2
    have hN' := (hb i' h1' h2' j' h3' h4').2.2
    rcases lt_trichotomy i i' with h | h | h
    · exfalso
      have := mul_le_mul_of_nonneg_right (by omega : -a + i + 1 ≤ -a + i') (by omega : 0 ≤ N)
      rw [add_mul] at this; omega
    · subst h; exact ⟨rfl, by omega⟩
    · exfalso
      have := mul_le_mul_of_nonneg_right (by omega : -a + i' + 1 ≤ -a + i) (by omega : 0 ≤ N)
      rw [add_mul] at this; omega
  obtain ⟨l, e, hlen, hin, hout⟩ := puts_spec ((intRange a b).flatMap fun i => (intRange a' b').map fun j =>
      ((-a + i) * N + (-a' + j), S i j)) (List.replicate (vecShape cls (2 * m)).prod 0) (by
    intro w hw
    obtain ⟨i, h1, h2, j, h3, h4, rfl⟩ := (mem w).1 hw
    rw [List.length_replicate]
    exact ⟨(hb i h1 h2 j h3 h4).1, (hb i h1 h2 j h3 h4).2.1⟩) (by
    intro w hw w' hw' he
    obtain ⟨i, h1, h2, j, h3, h4, rfl⟩ := (mem w).1 hw
    obtain ⟨i', h1', h2', j', h3', h4', rfl⟩ := (mem w').1 hw'
    obtain ⟨rfl, rfl⟩ := inj i h1 h2 j h3 h4 i' h1' h2' j' h3' h4' he
    rfl)
  refine ⟨l, e, by rw [hlen]; simp, ?_⟩
  intro iv hv ivp hvp
  -- written and unwritten positions
  have wr : ∀ i, a ≤ i → i ≤ b → ∀ j, a' ≤ j → j ≤ b' → ∀ p : Nat, (p : ℤ) = (-a + i) * N + (-a' + j) →
      l[p]? = some (S i j) := by
    intro i h1 h2 j h3 h4 p hp
    have := hin _ ((mem _).2 ⟨i, h1, h2, j, h3, h4, rfl⟩)
    dsimp only at this
    rw [← hp] at this
    simpa using this
  have un : ∀ p : Nat, p < (vecShape cls (2 * m)).prod → (∀ i, a ≤ i → i ≤ b → ∀ j, a' ≤ j → j ≤ b' →
      (-a + i) * N + (-a' + j) ≠ (p : ℤ)) → l[p]? = some 0 := by
    intro p hp h
    rw [hout p (by
      intro w hw
      obtain ⟨i, h1, h2, j, h3, h4, rfl⟩ := (mem w).1 hw
      exact h i h1 h2 j h3 h4)]
    simp [hp]
  unfold ranges at hr
  rw [hd1, hd2] at hr
  cases cls <;> simp only [Prod.mk.injEq] at hr <;> obtain ⟨rfl, rfl, rfl, rfl, rfl⟩ := hr <;>
    simp only [vecIndex, vecShape, rowMajor, List.prod_cons, List.prod_nil, Nat.mul_one, Nat.add_zero, wanted]
  · rw [if_pos (show inHalf .k1 dbg m iv ivp from trivial)]
    exact wr 0 (by omega) (by omega) 0 (by omega) (by omega) 0 (by simp)
  · by_cases hh : inHalf .k2 dbg m iv ivp
    · rw [if_pos hh]
      have hh : dbg = true ∨ iv < m := hh
      refine wr _ (by omega) ?_ 0 (by omega) (by omega) iv (by omega)
      rcases hh with h | h
      · rw [if_pos h]; omega
      · split <;> omega
    · rw [if_neg hh]
      have hh : ¬ (dbg = true ∨ iv < m) := hh
      refine un iv (by simp only [vecShape, List.prod_cons, List.prod_nil]; omega) ?_
      intro i h1 h2 j h3 h4 h5
      rw [not_or] at hh
      rw [if_neg hh.1] at h2
      omega
  · by_cases hh : inHalf .k2b dbg m iv ivp
    · rw [if_pos hh]
      have hh : dbg = true ∨ ivp < m := hh
      refine wr 0 (by omega) (by omega) _ (by omega) ?_ ivp (by omega)
      rcases hh with h | h
      · rw [if_pos h]; omega
      · split <;> omega
    · rw [if_neg hh]
      have hh : ¬ (dbg = true ∨ ivp < m) := hh
      refine un ivp (by simp only [vecShape, List.prod_cons, List.prod_nil]; omega) ?_
      intro i h1 h2 j h3 h4 h5
      rw [not_or] at hh
      rw [if_neg hh.1] at h4
      obtain rfl : i = 0 := by omega
      omega
  · by_cases hh : inHalf .k3 dbg m iv ivp
    · rw [if_pos hh]
      have hh : dbg = true ∨ iv < m := hh
      refine wr _ (by omega) ?_ ((ivp : ℤ) - m) (by omega) (by omega) _ (by push_cast; ring)
      rcases hh with h | h
      · rw [if_pos h]; omega
      · split <;> omega
    · rw [if_neg hh]
      have hh : ¬ (dbg = true ∨ iv < m) := hh
      rw [not_or] at hh
      have hlt : iv * (2 * m) + ivp < 2 * m * (2 * m) := by
        have := Nat.mul_le_mul_right (2 * m) (by omega : iv + 1 ≤ 2 * m)
        rw [Nat.add_mul] at this; omega
      refine un _ (by simpa only [vecShape, List.prod_cons, List.prod_nil, Nat.mul_one] using hlt) ?_
      intro i h1 h2 j h3 h4 h5
      rw [if_neg hh.1] at h2
      have := mul_le_mul_of_nonneg_right (by omega : - -(m : ℤ) + i + 1 ≤ iv) (by omega : (0 : ℤ) ≤ 2 * m)
      rw [add_mul] at this
      push_cast at h5
      omega

/-- C128, imaginary frequencies at finite temperature, an even number `2 m` of fermionic grid points: every entry
holds the sum with exactly its frequencies, or zero if it is left to the symmetries. -/
theorem c128_matsubara [Zero α] (cls : Cls) (dbg : Bool) (ns nw m : Nat)
    (need : List Nat → Bool) (S : List Nat → ℤ → ℤ → α)
    {ws nodes : Nat} {small : α → Bool} {sched : Nat → Nat → List (Nat × Nat)}
    (hws : 0 < ws) (hn : 0 < nodes) (hsm : small 0 = true)
    (hs : Mpi.ValidSchedule ⟨ws, nodes, numElems (shape cls ns nw 1 1 1 1), (vecShape cls (2 * m)).prod⟩
      ((numElems (shape cls ns nw 1 1 1 1) + nodes - 1) / nodes) sched) :
    ∃ out, run .matsubara cls (shape cls ns nw (2 * m) (2 * m) 1 1) need
        (fun nvec idx => storeMatsubara cls dbg (2 * m : Nat) nvec (S idx)) ws nodes small sched = .ok out ∧
      out.length = numElems (shape cls ns nw (2 * m) (2 * m) 1 1) ∧
      ∀ s < ns, ∀ iw < nw, ∀ iv < 2 * m, ∀ ivp < 2 * m,
        out[rowMajor (shape cls s iw iv ivp 0 0) (shape cls ns nw (2 * m) (2 * m) 1 1)]? =
          some (if need (shape cls s iw 0 0 0 0) = true ∧ inHalf cls dbg m iv ivp then
            wanted cls m (S (shape cls s iw 0 0 0 0)) iv ivp else 0) := by
  choose vals hv1 hv2 hv3 using fun idx => storeMatsubara_spec cls dbg m (S idx)
  have fin : ∀ idx iv ivp, iv < 2 * m → ivp < 2 * m → (if need idx then
      (vals idx)[rowMajor (vecIndex cls iv ivp) (vecShape cls (2 * m))]? else some 0) =
      some (if need idx = true ∧ inHalf cls dbg m iv ivp then wanted cls m (S idx) iv ivp else 0) := by
    intro idx iv ivp h1 h2
    rw [hv3 idx iv h1 ivp h2]
    by_cases a : need idx = true <;> by_cases b : inHalf cls dbg m iv ivp <;> simp [a, b]
  have hp : numElems (shape cls ns nw 1 1 1 1) = [ns, nw].prod := by cases cls <;> simp [numElems, shape]
  rw [hp] at hs
  cases cls
  case k1 =>
    obtain ⟨out, e, hl, h⟩ := run_entry (mode := .matsubara) (cls := .k1) [ns, nw] [] 2 (by simp) rfl
      (need := need) (store := fun nvec idx => storeMatsubara .k1 dbg (2 * m : Nat) nvec (S idx))
      (fun o => vals (o ++ [] ++ [0, 0])) (fun o _ _ => ⟨hv1 _, hv2 _⟩) hws hn hsm hs
    refine ⟨out, e, hl, ?_⟩
    intro s hs iw hw iv hv ivp hvp
    exact (h [s, iw] [] (.cons hs (.cons hw .nil)) .nil).trans (fin (shape .k1 s iw 0 0 0 0) iv ivp hv hvp)
  case k2 =>
    obtain ⟨out, e, hl, h⟩ := run_entry (mode := .matsubara) (cls := .k2) [ns, nw] [2 * m] 2 (by simp) rfl
      (need := need) (store := fun nvec idx => storeMatsubara .k2 dbg (2 * m : Nat) nvec (S idx))
      (fun o => vals (o ++ [0] ++ [0, 0])) (fun o _ _ => ⟨hv1 _, hv2 _⟩) hws hn hsm hs
    refine ⟨out, e, hl, ?_⟩
    intro s hs iw hw iv hv ivp hvp
    exact (h [s, iw] [iv] (.cons hs (.cons hw .nil)) (.cons hv .nil)).trans
      (fin (shape .k2 s iw 0 0 0 0) iv ivp hv hvp)
  case k2b =>
    obtain ⟨out, e, hl, h⟩ := run_entry (mode := .matsubara) (cls := .k2b) [ns, nw] [2 * m] 2 (by simp) rfl
      (need := need) (store := fun nvec idx => storeMatsubara .k2b dbg (2 * m : Nat) nvec (S idx))
      (fun o => vals (o ++ [0] ++ [0, 0])) (fun o _ _ => ⟨hv1 _, hv2 _⟩) hws hn hsm hs
    refine ⟨out, e, hl, ?_⟩
    intro s hs iw hw iv hv ivp hvp
    exact (h [s, iw] [ivp] (.cons hs (.cons hw .nil)) (.cons hvp .nil)).trans
      (fin (shape .k2b s iw 0 0 0 0) iv ivp hv hvp)
  case k3 =>
    obtain ⟨out, e, hl, h⟩ := run_entry (mode := .matsubara) (cls := .k3) [ns, nw] [2 * m, 2 * m] 2 (by simp) rfl
      (need := need) (store := fun nvec idx => storeMatsubara .k3 dbg (2 * m : Nat) nvec (S idx))
      (fun o => vals (o ++ [0, 0] ++ [0, 0])) (fun o _ _ => ⟨hv1 _, hv2 _⟩) hws hn hsm hs
    refine ⟨out, e, hl, ?_⟩
    intro s hs iw hw iv hv ivp hvp
    exact (h [s, iw] [iv, ivp] (.cons hs (.cons hw .nil)) (.cons hv (.cons hvp .nil))).trans
      (fin (shape .k3 s iw 0 0 0 0) iv ivp hv hvp)

/-- C128 needs an even number of fermionic grid points: with an odd number the last entry is never written. -/
theorem c128_odd_refuted [Zero α] (m : Nat) (S : ℤ → ℤ → α) :
    ∃ l, storeMatsubara .k2 true (2 * m + 1 : Nat) (2 * m + 1) S = .ok l ∧ l[2 * m]? = some 0 := by
  have hd1 : Int.tdiv (-((2 * m + 1 : Nat) : ℤ)) 2 = -(m : ℤ) := by
    rw [Int.neg_tdiv, Int.tdiv_eq_ediv_of_nonneg (by omega)]; omega
  have hd2 : Int.tdiv ((2 * m + 1 : Nat) : ℤ) 2 = (m : ℤ) := by
    rw [Int.tdiv_eq_ediv_of_nonneg (by omega)]; omega
  unfold storeMatsubara ranges
  rw [hd1, hd2]
  dsimp only
  rw [if_pos rfl]
  have mem : ∀ w : ℤ × α, w ∈ ((intRange (-(m : ℤ)) (m - 1)).flatMap fun i => (intRange 0 0).map fun j =>
      ((- -(m : ℤ) + i) * 1 + (-0 + j), S i j)) ↔
      ∃ i, -(m : ℤ) ≤ i ∧ i ≤ m - 1 ∧ ∃ j, (0 : ℤ) ≤ j ∧ j ≤ 0 ∧ w = ((- -(m : ℤ) + i) * 1 + (-0 + j), S i j) := by
    intro w
    simp only [List.mem_flatMap, List.mem_map, mem_intRange, and_assoc, eq_comm]
  obtain ⟨l, e, hlen, -, hout⟩ := puts_spec ((intRange (-(m : ℤ)) (m - 1)).flatMap fun i => (intRange 0 0).map fun j =>
      ((- -(m : ℤ) + i) * 1 + (-0 + j), S i j)) (List.replicate (2 * m + 1) 0) (by
    intro w hw
    obtain ⟨i, h1, h2, j, h3, h4, rfl⟩ := (mem w).1 hw
    rw [List.length_replicate]
    dsimp only
    push_cast
    omega) (by
    intro w hw w' hw' he
    obtain ⟨i, h1, h2, j, h3, h4, rfl⟩ := (mem w).1 hw
    obtain ⟨i', h1', h2', j', h3', h4', rfl⟩ := (mem w').1 hw'
    dsimp only at he
    obtain rfl : i = i' := by omega
    obtain rfl : j = j' := by omega
    rfl)
  refine ⟨l, e, ?_⟩
  rw [hout (2 * m) (by
    intro w hw
    obtain ⟨i, h1, h2, j, h3, h4, rfl⟩ := (mem w).1 hw
    dsimp only
    push_cast
    omega)]
  simp

/-- The hypotheses of `c128_matsubara` can be met, and the sums tell the frequencies apart. -/
example : wanted .k3 2 (fun i j => (i, j)) 1 2 ≠ wanted .k3 2 (fun i j => (i, j)) 2 1 ∧
    Mpi.ValidSchedule ⟨2, 3, numElems (shape .k3 1 5 1 1 1 1), (vecShape .k3 4).prod⟩
      ((numElems (shape .k3 1 5 1 1 1 1) + 3 - 1) / 3)
      (fun _ i => Mpi.writeEvents ⟨2, 3, numElems (shape .k3 1 5 1 1 1 1), (vecShape .k3 4).prod⟩
        ((numElems (shape .k3 1 5 1 1 1 1) + 3 - 1) / 3) i) :=
  ⟨by decide, fun _ _ => List.Perm.refl _⟩

end Verif.Layout
