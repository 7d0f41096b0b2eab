import Verif.FinDiff.Model
import Verif.FinDiff.Spec
import Verif.Util.Loops
import Verif.Util.Lists
import Mathlib.LinearAlgebra.Lagrange
import Mathlib.Tactic.Module
import Mathlib.Data.Int.Interval
import Mathlib.Tactic.Linarith
import Mathlib.Algebra.Order.BigOperators.Ring.Finset

namespace Verif.FinDiff
open Verif Verif.Index Verif.MultiArray Polynomial

section alg
variable {K : Type} [Field K]

/-- Derivative of a Lagrange basis polynomial at another node. -/
theorem basis_deriv_other (S : Finset Int) (x : Int → K) (hX : Set.InjOn x S) {z i : Int} (hz : z ∈ S)
    (hi : i ∈ S) (hne : i ≠ z) :
    (derivative (Lagrange.basis S x i)).eval (x z)
      = (∏ j ∈ S.erase z, (x z - x j)) / (x z - x i) / ∏ j ∈ S.erase i, (x i - x j) := by
  have hzi : z ∈ S.erase i := Finset.mem_erase.mpr ⟨hne.symm, hz⟩
  have hiz : i ∈ S.erase z := Finset.mem_erase.mpr ⟨hne, hi⟩
  have hd : x z - x i ≠ 0 := sub_ne_zero.mpr fun h => hne (hX hz hi h).symm
  unfold Lagrange.basis
  rw [derivative_prod_finset, eval_finsetSum, Finset.sum_eq_single z]
  · rw [eval_mul, eval_prod]
    have h1 : eval (x z) (derivative (Lagrange.basisDivisor (x i) (x z))) = (x i - x z)⁻¹ := by
      simp [Lagrange.basisDivisor]
    have h2 : ∀ j, eval (x z) (Lagrange.basisDivisor (x i) (x j)) = (x z - x j) / (x i - x j) := by
      intro j; simp [Lagrange.basisDivisor, div_eq_inv_mul]
    rw [h1, Finset.prod_congr rfl fun j _ => h2 j, Finset.prod_div_distrib,
      ← Finset.mul_prod_erase _ _ hiz, ← Finset.mul_prod_erase _ _ hzi, Finset.erase_right_comm,
      mul_div_cancel_left₀ _ hd, div_mul_eq_div_div_swap, div_eq_mul_inv _ (x i - x z)]
  · intro a ha hne'
    rw [eval_mul, eval_prod]
    rw [Finset.prod_eq_zero (i := z) (Finset.mem_erase.mpr ⟨hne'.symm, hzi⟩) (by simp), zero_mul]
  · intro h; exact absurd hzi h

/-- Derivative of a Lagrange basis polynomial at its own node. -/
theorem basis_deriv_self (S : Finset Int) (x : Int → K) (hX : Set.InjOn x S) {z : Int} (hz : z ∈ S) :
    (derivative (Lagrange.basis S x z)).eval (x z) = ∑ j ∈ S.erase z, 1 / (x z - x j) := by
  unfold Lagrange.basis
  rw [derivative_prod_finset, eval_finsetSum]
  apply Finset.sum_congr rfl
  intro a ha
  rw [eval_mul, eval_prod, Finset.prod_eq_one]
  · simp [Lagrange.basisDivisor]
  · intro j hj
    have hj' := Finset.mem_of_mem_erase hj
    apply Lagrange.eval_basisDivisor_left_of_ne
    intro h
    have := hX hz (Finset.mem_of_mem_erase hj') h
    exact (Finset.mem_erase.mp hj').1 this.symm

/-- The weights of the differentiation formula through the nodes `x j`, `j ∈ S`, at the node `x z`. -/
def weight (S : Finset Int) (x : Int → K) (z i : Int) : K :=
  if i = z then ∑ j ∈ S.erase z, 1 / (x z - x j)
  else (∏ j ∈ S.erase z, (x z - x j)) / (x z - x i) / ∏ j ∈ S.erase i, (x i - x j)

/-- The formula differentiates polynomials of degree below the number of nodes exactly. -/
theorem weight_exact (S : Finset Int) (x : Int → K) (hX : Set.InjOn x S) {z : Int} (hz : z ∈ S)
    (p : K[X]) (hp : p.degree < S.card) :
    ∑ i ∈ S, weight S x z i * p.eval (x i) = (derivative p).eval (x z) := by
  conv_rhs => rw [Lagrange.eq_interpolate hX hp, Lagrange.interpolate_apply, derivative_sum, eval_finsetSum]
  apply Finset.sum_congr rfl
  intro i hi
  rw [derivative_C_mul, eval_mul, eval_C, mul_comm]
  congr 1
  unfold weight
  split_ifs with h
  · subst h; exact (basis_deriv_self S x hX hz).symm
  · exact (basis_deriv_other S x hX hz hi h).symm

variable {W : Type} [AddCommGroup W] [Module K W]

/-- The same for coefficients in a vector space. -/
theorem weight_exact_vec (S : Finset Int) (x : Int → K) (hX : Set.InjOn x S) {z : Int} (hz : z ∈ S)
    (n : Nat) (hn : n ≤ S.card) (c : Nat → W) :
    ∑ i ∈ S, weight S x z i • polyVal n c (x i) = polyDeriv n c (x z) := by
  unfold polyVal polyDeriv
  simp only [Finset.smul_sum, smul_smul]
  rw [Finset.sum_comm]
  apply Finset.sum_congr rfl
  intro m hm
  rw [← Finset.sum_smul]
  congr 1
  have := weight_exact S x hX hz (X ^ m : K[X]) (by
    rw [degree_X_pow]
    have : m < n := Finset.mem_range.mp hm
    exact_mod_cast (by omega : m < S.card))
  simpa [derivative_X_pow] using this

end alg

/-! ### The helper -/

section ordered
variable {K W : Type} [Field K] [LinearOrder K] [IsStrictOrderedRing K] [AddCommGroup W] [Module K W]

theorem mem_intRange {a b j : Int} : j ∈ intRange a b ↔ a ≤ j ∧ j < b := by
  unfold intRange
  simp only [List.mem_map, List.mem_range]
  constructor
  · rintro ⟨k, hk, rfl⟩; omega
  · rintro ⟨h1, h2⟩; exact ⟨(j - a).toNat, by omega, by omega⟩

theorem nodup_intRange (a b : Int) : (intRange a b).Nodup := by
  unfold intRange
  exact List.Nodup.map (fun p q h => by simpa using h) List.nodup_range

/-- A denominator loop either fails an assertion or returns the product; it does the latter if all factors
are at least `h` in modulus and the powers of `h` exceed the threshold. -/
theorem denom_fold (eps : K) (x : Nat → Res K) (jt : Nat) (i : Int) (X : Int → K)
    (js : List Int) (d : K) (hi : rdI x (jt + i) = .ok (X i)) (hj : ∀ j ∈ js, rdI x (jt + j) = .ok (X j)) :
    (js.foldlM (denomStep eps x jt i) d = .error .assertion ∨
      js.foldlM (denomStep eps x jt i) d = .ok (d * (js.map fun j => X i - X j).prod)) ∧
    (∀ (h : K) (m : Nat), 0 ≤ h → (∀ j ∈ js, h ≤ |X i - X j|) → h ^ m ≤ |d| → (∀ k, k ≤ m + js.length → eps < h ^ k) →
      js.foldlM (denomStep eps x jt i) d = .ok (d * (js.map fun j => X i - X j).prod)) := by
  induction js generalizing d with
  | nil => simp [pure, Except.pure]
  | cons j js ih =>
    have hs : denomStep eps x jt i d j = if ¬ |d * (X i - X j)| > eps then .error .assertion
        else .ok (d * (X i - X j)) := by
      simp only [denomStep, hi, hj j List.mem_cons_self, bind, Except.bind, pure, Except.pure]
      split_ifs <;> rfl
    rw [List.foldlM_cons, hs]
    have ih' := ih (d * (X i - X j)) (fun j' hj' => hj j' (List.mem_cons_of_mem _ hj'))
    have e : d * (List.map (fun j => X i - X j) (j :: js)).prod
        = d * (X i - X j) * (List.map (fun j => X i - X j) js).prod := by
      rw [List.map_cons, List.prod_cons, mul_assoc]
    rw [e]
    constructor
    · split_ifs with hc
      · exact ih'.1
      · exact Or.inl rfl
    · intro h m h0 hge hd hpow
      have hle : h ^ (m+1) ≤ |d * (X i - X j)| := by
        rw [abs_mul, pow_succ]
        exact mul_le_mul hd (hge j List.mem_cons_self) h0 (abs_nonneg _)
      have hgt : |d * (X i - X j)| > eps :=
        lt_of_lt_of_le (hpow (m+1) (by simp)) hle
      rw [if_neg (not_not.mpr hgt)]
      exact ih'.2 h (m+1) h0 (fun j' hj' => hge j' (List.mem_cons_of_mem _ hj')) hle
        (fun k hk => hpow k (by simp at hk ⊢; omega))

/-- The numerator loop. -/
theorem numer_fold (x : Nat → Res K) (jt : Nat) (X : Int → K) (js : List Int) (p : K)
    (h0 : x jt = .ok (X 0)) (hj : ∀ j ∈ js, rdI x (jt + j) = .ok (X j)) :
    js.foldlM (numerStep x jt) p = .ok (p * (js.map fun j => X 0 - X j).prod) := by
  induction js generalizing p with
  | nil => simp [pure, Except.pure]
  | cons j js ih =>
    have hs : numerStep x jt p j = .ok (p * (X 0 - X j)) := by
      simp only [numerStep, h0, hj j List.mem_cons_self, bind, Except.bind, pure, Except.pure]
    rw [List.foldlM_cons, hs]
    show js.foldlM (numerStep x jt) (p * (X 0 - X j)) = _
    rw [ih _ fun j' hj' => hj j' (List.mem_cons_of_mem _ hj'), List.map_cons, List.prod_cons, mul_assoc]

/-- A loop whose steps fail independently of the accumulator. -/
theorem foldlM_or {α β : Type} (step : α → β → Res α) (g : α → β → α) (e : Fail) (l : List β)
    (h : ∀ b ∈ l, (∀ a, step a b = .error e) ∨ ∀ a, step a b = .ok (g a b)) (a : α) :
    (l.foldlM step a = .error e ∨ l.foldlM step a = .ok (l.foldl g a)) ∧
    ((∀ b ∈ l, ∀ a, step a b = .ok (g a b)) → l.foldlM step a = .ok (l.foldl g a)) := by
  induction l generalizing a with
  | nil => exact ⟨Or.inr rfl, fun _ => rfl⟩
  | cons b l ih =>
    have ih' := ih (fun b' hb' => h b' (List.mem_cons_of_mem _ hb')) (g a b)
    constructor
    · rcases h b List.mem_cons_self with hb | hb
      · left; rw [List.foldlM_cons, hb]; rfl
      · rw [List.foldlM_cons, hb]; exact ih'.1
    · intro hall
      rw [List.foldlM_cons, hall b List.mem_cons_self]
      exact ih'.2 fun b' hb' => hall b' (List.mem_cons_of_mem _ hb')

theorem foldl_pair (A : Int → W) (B : Int → K) (l : List Int) (acc : W × K) :
    l.foldl (fun (acc : W × K) i => (acc.1 + A i, acc.2 + B i)) acc
      = (acc.1 + (l.map A).sum, acc.2 + (l.map B).sum) := by
  induction l generalizing acc with
  | nil => simp
  | cons i l ih => simp [ih, add_assoc]

/-- Conditions under which no denominator assertion fires: distinct nodes are at least `h` apart and the
relevant powers of `h` exceed the threshold. -/
def Spread (eps h : K) (S : Finset Int) (X : Int → K) : Prop :=
  0 ≤ h ∧ (∀ i ∈ S, ∀ j ∈ S, i ≠ j → h ≤ |X i - X j|) ∧ ∀ k, k < S.card → eps < h ^ k

/-- The helper computes the derivative formula through the nodes of the stencil, or fails an assertion. -/
theorem helper_spec (eps : K) (x : Nat → Res K) (f : Nat → Res W) (jt : Nat) (noI : List Int)
    (lower upper : Int) (X : Int → K) (F : Int → W)
    (hnd : noI.Nodup) (hS : noI.toFinset = (Finset.Icc lower upper).erase 0)
    (h0 : (0 : Int) ∈ Finset.Icc lower upper)
    (hx : ∀ j ∈ Finset.Icc lower upper, rdI x (jt + j) = .ok (X j))
    (hf : ∀ j ∈ Finset.Icc lower upper, rdI f (jt + j) = .ok (F j)) :
    (helper eps x f jt noI lower upper = .error .assertion ∨
      helper eps x f jt noI lower upper
        = .ok (∑ i ∈ Finset.Icc lower upper, weight (Finset.Icc lower upper) X 0 i • F i)) ∧
    (∀ h, Spread eps h (Finset.Icc lower upper) X → helper eps x f jt noI lower upper
        = .ok (∑ i ∈ Finset.Icc lower upper, weight (Finset.Icc lower upper) X 0 i • F i)) := by
  set S := Finset.Icc lower upper with hSdef
  have hmem : ∀ {i}, i ∈ noI ↔ i ≠ 0 ∧ i ∈ S := by
    intro i; rw [← List.mem_toFinset, hS, Finset.mem_erase]
  have hx0 : x jt = .ok (X 0) := by have := hx 0 h0; simpa [rdI] using this
  have hf0 : f jt = .ok (F 0) := by have := hf 0 h0; simpa [rdI] using this
  have hnum := numer_fold x jt X noI 1 hx0 fun j hj => hx j (hmem.mp hj).2
  rw [one_mul, ← List.prod_toFinset _ hnd, hS] at hnum
  -- the denominator of the term `i`
  have hlist : ∀ i ∈ S, ((intRange lower i ++ intRange (i+1) (upper+1)).Nodup) ∧
      (intRange lower i ++ intRange (i+1) (upper+1)).toFinset = S.erase i := by
    intro i hi
    have hi' := Finset.mem_Icc.mp hi
    constructor
    · rw [List.nodup_append]
      refine ⟨nodup_intRange _ _, nodup_intRange _ _, ?_⟩
      intro a ha b hb; rw [mem_intRange] at ha hb; omega
    · ext j
      rw [List.mem_toFinset, List.mem_append, mem_intRange, mem_intRange, Finset.mem_erase, hSdef, Finset.mem_Icc]
      omega
  have hden : ∀ i ∈ S,
      ((intRange lower i ++ intRange (i+1) (upper+1)).foldlM (denomStep eps x jt i) 1 = .error .assertion ∨
       (intRange lower i ++ intRange (i+1) (upper+1)).foldlM (denomStep eps x jt i) 1
          = .ok (∏ j ∈ S.erase i, (X i - X j))) ∧
      ∀ h, Spread eps h S X →
       (intRange lower i ++ intRange (i+1) (upper+1)).foldlM (denomStep eps x jt i) 1
          = .ok (∏ j ∈ S.erase i, (X i - X j)) := by
    intro i hi
    have hmemS : ∀ j ∈ intRange lower i ++ intRange (i+1) (upper+1), j ∈ S ∧ j ≠ i := by
      intro j hj
      rw [← List.mem_toFinset, (hlist i hi).2, Finset.mem_erase] at hj
      exact ⟨hj.2, hj.1⟩
    have := denom_fold eps x jt i X (intRange lower i ++ intRange (i+1) (upper+1)) 1 (hx i hi)
      fun j hj => hx j (hmemS j hj).1
    rw [one_mul, ← List.prod_toFinset _ (hlist i hi).1, (hlist i hi).2] at this
    refine ⟨this.1, fun h hh => this.2 h 0 hh.1 (fun j hj => hh.2.1 i hi j (hmemS j hj).1 (hmemS j hj).2.symm)
      (by simp) fun k hk => hh.2.2 k ?_⟩
    rw [← List.toFinset_card_of_nodup (hlist i hi).1, (hlist i hi).2, Finset.card_erase_of_mem hi] at hk
    have : 0 < S.card := Finset.card_pos.mpr ⟨i, hi⟩
    omega
  -- one step of the outer loop
  have hstep : ∀ i ∈ noI, ∀ acc : W × K, helperStep eps x f jt noI lower upper acc i =
      (do let d ← (intRange lower i ++ intRange (i+1) (upper+1)).foldlM (denomStep eps x jt i) 1
          .ok (acc.1 + ((∏ j ∈ S.erase 0, (X 0 - X j)) / (X 0 - X i) / d) • F i, acc.2 + 1 / (X 0 - X i))) := by
    intro i hi acc
    unfold helperStep
    rw [List.foldlM_append, bind_assoc]
    simp only [hnum, hx0, hx i (hmem.mp hi).2, hf i (hmem.mp hi).2]
    rfl
  have hw : ∀ i ∈ noI, weight S X 0 i
      = (∏ j ∈ S.erase 0, (X 0 - X j)) / (X 0 - X i) / ∏ j ∈ S.erase i, (X i - X j) := by
    intro i hi; unfold weight; rw [if_neg (hmem.mp hi).1]
  have hokstep : ∀ i ∈ noI, (intRange lower i ++ intRange (i+1) (upper+1)).foldlM (denomStep eps x jt i) 1
          = .ok (∏ j ∈ S.erase i, (X i - X j)) → ∀ acc : W × K, helperStep eps x f jt noI lower upper acc i =
      .ok (acc.1 + weight S X 0 i • F i, acc.2 + 1 / (X 0 - X i)) := by
    intro i hi hd acc
    rw [hstep i hi, hd, hw i hi]; rfl
  have hfold := foldlM_or (helperStep eps x f jt noI lower upper)
    (fun acc i => (acc.1 + weight S X 0 i • F i, acc.2 + 1 / (X 0 - X i))) .assertion noI
    (fun i hi => by
      rcases (hden i (hmem.mp hi).2).1 with hd | hd
      · left; intro acc; rw [hstep i hi, hd]; rfl
      · right; exact hokstep i hi hd) (0, 0)
  rw [foldl_pair] at hfold
  have hres : ((noI.map fun i => weight S X 0 i • F i).sum
      + (noI.map fun i => 1 / (X 0 - X i)).sum • F 0) = ∑ i ∈ S, weight S X 0 i • F i := by
    rw [← List.sum_toFinset _ hnd, ← List.sum_toFinset _ hnd, hS, ← Finset.sum_erase_add _ _ h0]
    congr 2
  simp only [zero_add] at hfold
  constructor
  · rcases hfold.1 with hh | hh
    · left; unfold helper; rw [hh]; rfl
    · right; unfold helper; rw [hh, ← hres, hf0]; rfl
  · intro h hsp
    have hh := hfold.2 fun i hi => hokstep i hi ((hden i (hmem.mp hi).2).2 h hsp)
    unfold helper; rw [hh, ← hres, hf0]; rfl

/-! ### One line -/

theorem rd_ok {α : Type} (l : List α) (k : Nat) (h : k < l.length) : rd l k = .ok l[k] := by
  simp [rd, h]

/-- The helper on a stencil inside a strictly increasing grid, for polynomial data of degree below the
number of nodes. -/
theorem helper_poly (eps : K) (xs : List K) (hmono : xs.Pairwise (· < ·)) (N : Nat) (c : Nat → W)
    (jt : Nat) (noI : List Int) (lower upper : Int)
    (hnd : noI.Nodup) (hS : noI.toFinset = (Finset.Icc lower upper).erase 0)
    (hl : lower ≤ 0) (hu : 0 ≤ upper) (h1 : 0 ≤ jt + lower) (h2 : jt + upper < xs.length)
    (hN : (N : Int) ≤ upper + 1 - lower) :
    (helper eps (rd xs) (rd (xs.map (polyVal N c))) jt noI lower upper = .error .assertion ∨
     helper eps (rd xs) (rd (xs.map (polyVal N c))) jt noI lower upper
        = .ok (polyDeriv N c (xs[jt]'(by omega)))) ∧
    (∀ h, 0 ≤ h → (∀ i j (hi : i < xs.length) (hj : j < xs.length), i ≠ j → h ≤ |xs[i] - xs[j]|) →
      (∀ k : Nat, (k : Int) ≤ upper - lower → eps < h ^ k) →
      helper eps (rd xs) (rd (xs.map (polyVal N c))) jt noI lower upper
        = .ok (polyDeriv N c (xs[jt]'(by omega)))) := by
  set X : Int → K := fun j => xs.getD (jt + j).toNat 0 with hX
  have hget : ∀ j ∈ Finset.Icc lower upper, ∃ h : (jt + j).toNat < xs.length, X j = xs[(jt + j).toNat] := by
    intro j hj
    rw [Finset.mem_Icc] at hj
    have h : (jt + j).toNat < xs.length := by omega
    exact ⟨h, by simp [hX, h]⟩
  have hinj : Set.InjOn X (Finset.Icc lower upper) := by
    intro a ha b hb hab
    obtain ⟨ha', ea⟩ := hget a ha
    obtain ⟨hb', eb⟩ := hget b hb
    rw [ea, eb] at hab
    have hnd : xs.Nodup := hmono.imp fun h => ne_of_lt h
    have := (List.Nodup.getElem_inj_iff hnd).mp hab
    rw [Finset.mem_coe, Finset.mem_Icc] at ha hb
    omega
  have h0 : (0 : Int) ∈ Finset.Icc lower upper := Finset.mem_Icc.mpr ⟨hl, hu⟩
  have hcard : (Finset.Icc lower upper).card = (upper + 1 - lower).toNat := Int.card_Icc _ _
  have hex := weight_exact_vec (Finset.Icc lower upper) X hinj h0 N (by rw [hcard]; omega) c
  have hX0 : X 0 = xs[jt]'(by omega) := by
    have h : jt < xs.length := by omega
    simp [hX, h]
  rw [hX0] at hex
  have hs := helper_spec eps (rd xs) (rd (xs.map (polyVal N c))) jt noI lower upper X
    (fun j => polyVal N c (X j)) hnd hS h0
    (fun j hj => by
      obtain ⟨h, e⟩ := hget j hj
      rw [Finset.mem_Icc] at hj
      rw [rdI, if_pos (by omega), rd_ok _ _ h, e])
    (fun j hj => by
      obtain ⟨h, e⟩ := hget j hj
      rw [Finset.mem_Icc] at hj
      rw [rdI, if_pos (by omega), rd_ok _ _ (by simpa using h), List.getElem_map, e])
  rw [hex] at hs
  refine ⟨hs.1, fun h hh hsep hpow => hs.2 h ⟨hh, ?_, ?_⟩⟩
  · intro i hi j hj hne
    obtain ⟨hi', ei⟩ := hget i hi
    obtain ⟨hj', ej⟩ := hget j hj
    rw [ei, ej]
    rw [Finset.mem_Icc] at hi hj
    exact hsep _ _ hi' hj' (by omega)
  · intro k hk; rw [hcard] at hk; exact hpow k (by omega)

/-- Which stencil `get_finite_differences_v2` uses: a set of five neighbouring points inside the grid. -/
theorem lineV2_cases (eps : K) (n : Nat) (hn : 5 ≤ n) (x : Nat → Res K) (f : Nat → Res W) (jt : Nat) (hj : jt < n) :
    ∃ (noI : List Int) (lower upper : Int), lineV2 eps n x f jt = helper eps x f jt noI lower upper ∧
      noI.Nodup ∧ noI.toFinset = (Finset.Icc lower upper).erase 0 ∧ lower ≤ 0 ∧ 0 ≤ upper ∧
      0 ≤ jt + lower ∧ jt + upper < n ∧ upper - lower = 4 := by
  unfold lineV2
  split_ifs with h0 h1 h2 h3
  · exact ⟨_, _, _, rfl, by decide, by decide, by omega, by omega, by omega, by omega, by omega⟩
  · exact ⟨_, _, _, rfl, by decide, by decide, by omega, by omega, by omega, by omega, by omega⟩
  · exact ⟨_, _, _, rfl, by decide, by decide, by omega, by omega, by omega, by omega, by omega⟩
  · exact ⟨_, _, _, rfl, by decide, by decide, by omega, by omega, by omega, by omega, by omega⟩
  · exact ⟨_, _, _, rfl, by decide, by decide, by omega, by omega, by omega, by omega, by omega⟩

theorem noIs_spec (order i : Nat) (hi : i < order) : (noIs order i).Nodup ∧
    (noIs order i).toFinset = (Finset.Icc (-(i:Int)) ((order:Int) - 1 - i)).erase 0 := by
  unfold noIs
  constructor
  · rw [List.nodup_append]
    refine ⟨nodup_intRange _ _, nodup_intRange _ _, ?_⟩
    intro a ha b hb; rw [mem_intRange] at ha hb; omega
  · ext j
    rw [List.mem_toFinset, List.mem_append, mem_intRange, mem_intRange, Finset.mem_erase, Finset.mem_Icc]
    omega

/-- Which stencil `get_finite_differences_v3`/`_v4` use: `order` neighbouring points inside the grid. -/
theorem lineV3_cases (order : Nat) (hodd : order % 2 = 1) (eps : K) (n : Nat) (hn : order ≤ n) (x : Nat → Res K)
    (f : Nat → Res W) (jt : Nat) (hj : jt < n) :
    ∃ (noI : List Int) (lower upper : Int), lineV3 order eps n x f jt = helper eps x f jt noI lower upper ∧
      noI.Nodup ∧ noI.toFinset = (Finset.Icc lower upper).erase 0 ∧ lower ≤ 0 ∧ 0 ≤ upper ∧
      0 ≤ jt + lower ∧ jt + upper < n ∧ upper - lower = order - 1 := by
  unfold lineV3
  simp only
  split_ifs with h0 h1
  · obtain ⟨a, b⟩ := noIs_spec order jt (by omega)
    exact ⟨_, _, _, rfl, a, b, by omega, by omega, by omega, by omega, by omega⟩
  · obtain ⟨a, b⟩ := noIs_spec order ((order - 1) / 2) (by omega)
    rw [show (order : Int) - 1 - ((order - 1) / 2 : Nat) = ((order - 1) / 2 : Nat) by omega] at b
    exact ⟨_, _, _, rfl, a, b, by omega, by omega, by omega, by omega, by omega⟩
  · obtain ⟨a, b⟩ := noIs_spec order (order - 1 - (n - 1 - jt)) (by omega)
    rw [show (order : Int) - 1 - (order - 1 - (n - 1 - jt) : Nat) = (n - 1 - jt : Nat) by omega,
      show -((order - 1 - (n - 1 - jt) : Nat) : Int) = -(order:Int) + 1 + (n - 1 - jt : Nat) by omega] at b
    exact ⟨_, _, _, rfl, a, b, by omega, by omega, by omega, by omega, by omega⟩

omit [IsStrictOrderedRing K] in
/-- The helper reads grid and data only at the points of its stencil. -/
theorem helper_congr (eps : K) (x x' : Nat → Res K) (f f' : Nat → Res W) (jt : Nat) (noI : List Int)
    (lower upper : Int) (hS : noI.toFinset = (Finset.Icc lower upper).erase 0)
    (hl : lower ≤ 0) (hu : 0 ≤ upper)
    (hx : ∀ j, lower ≤ j → j ≤ upper → rdI x (jt + j) = rdI x' (jt + j))
    (hf : ∀ j, lower ≤ j → j ≤ upper → rdI f (jt + j) = rdI f' (jt + j)) :
    helper eps x f jt noI lower upper = helper eps x' f' jt noI lower upper := by
  have hmem : ∀ i ∈ noI, lower ≤ i ∧ i ≤ upper := by
    intro i hi
    rw [← List.mem_toFinset, hS, Finset.mem_erase, Finset.mem_Icc] at hi
    exact hi.2
  have hx0 : x jt = x' jt := by have := hx 0 hl hu; simpa [rdI] using this
  have hf0 : f jt = f' jt := by have := hf 0 hl hu; simpa [rdI] using this
  have congrM : ∀ {α β : Type} (s s' : α → β → Res α) (l : List β), (∀ a, ∀ b ∈ l, s a b = s' a b) →
      ∀ a, l.foldlM s a = l.foldlM s' a := by
    intro α β s s' l
    induction l with
    | nil => intros; rfl
    | cons b l ih =>
      intro h a
      rw [List.foldlM_cons, List.foldlM_cons, h a b List.mem_cons_self]
      congr 1; funext a'
      exact ih (fun a b hb => h a b (List.mem_cons_of_mem _ hb)) a'
  have hden : ∀ i ∈ noI, ∀ d j, lower ≤ j → j ≤ upper →
      denomStep eps x jt i d j = denomStep eps x' jt i d j := by
    intro i hi d j h1 h2
    unfold denomStep
    rw [hx i (hmem i hi).1 (hmem i hi).2, hx j h1 h2]
  unfold helper
  rw [congrM (helperStep eps x f jt noI lower upper) (helperStep eps x' f' jt noI lower upper) noI, hf0]
  intro a i hi
  have e1 := congrM (denomStep eps x jt i) (denomStep eps x' jt i) (intRange lower i) (fun d j hj => by
    rw [mem_intRange] at hj
    exact hden i hi d j (by omega) (by have := hmem i hi; omega))
  have e2 := congrM (denomStep eps x jt i) (denomStep eps x' jt i) (intRange (i+1) (upper+1)) (fun d j hj => by
    rw [mem_intRange] at hj
    exact hden i hi d j (by have := hmem i hi; omega) (by omega))
  have e3 := congrM (numerStep x jt) (numerStep x' jt) noI (fun p j hj => by
    unfold numerStep
    rw [hx0, hx j (hmem j hj).1 (hmem j hj).2])
  unfold helperStep
  simp only [e1, e2, e3, hx0, hx i (hmem i hi).1 (hmem i hi).2, hf i (hmem i hi).1 (hmem i hi).2]

omit [IsStrictOrderedRing K] in
theorem rdI_congr {α : Type} (n : Nat) (f f' : Nat → Res α) (h : ∀ k < n, f k = f' k) (jt : Nat) (j : Int)
    (h1 : 0 ≤ jt + j) (h2 : jt + j < n) : rdI f (jt + j) = rdI f' (jt + j) := by
  rw [rdI, rdI, if_pos h1, if_pos h1]; exact h _ (by omega)

end ordered
end Verif.FinDiff
