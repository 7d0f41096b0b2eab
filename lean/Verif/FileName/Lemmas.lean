import Verif.FileName.Spec
import Mathlib.Data.Nat.Digits.Lemmas
import Mathlib.Data.List.GetD
import Mathlib.Tactic.IntervalCases
import Mathlib.Tactic.NormNum
import Mathlib.Tactic.Linarith

namespace Verif.FileName

theorem digit_inj : ∀ a < 10, ∀ b < 10, digit a = digit b → a = b := by decide

theorem digit_mem (d : Nat) : digit d ∈ ['0', '1', '2', '3', '4', '5', '6', '7', '8', '9'] := by
  unfold digit
  rcases Nat.lt_or_ge d 10 with h | h
  · interval_cases d <;> decide
  · rw [List.getD_eq_default _ _ (by simpa using h)]; decide

theorem map_digit_inj {l m : List Nat} (hl : ∀ d ∈ l, d < 10) (hm : ∀ d ∈ m, d < 10)
    (h : l.map digit = m.map digit) : l = m := by
  induction l generalizing m with
  | nil => cases m <;> simp_all
  | cons a l ih =>
    cases m with
    | nil => simp at h
    | cons b m =>
      simp only [List.map_cons, List.cons.injEq] at h
      rw [digit_inj a (hl a (by simp)) b (hm b (by simp)) h.1,
        ih (fun d hd => hl d (List.mem_cons_of_mem _ hd)) (fun d hd => hm d (List.mem_cons_of_mem _ hd)) h.2]

theorem showNat_mem {n : Nat} {ch : Char} (h : ch ∈ showNat n) :
    ch ∈ ['0', '1', '2', '3', '4', '5', '6', '7', '8', '9'] := by
  unfold showNat at h
  split_ifs at h with h0
  · simp at h; simp [h]
  · obtain ⟨d, _, rfl⟩ := List.mem_map.mp h
    exact digit_mem d

theorem showNat_ne_nil (n : Nat) : showNat n ≠ [] := by
  unfold showNat
  split_ifs with h0
  · simp
  · simp [Nat.digits_ne_nil_iff_ne_zero, h0]

theorem digits_lt (n : Nat) : ∀ d ∈ (Nat.digits 10 n).reverse, d < 10 := by
  intro d hd
  exact Nat.digits_lt_base (by norm_num) (List.mem_reverse.mp hd)

theorem showNat_inj {n m : Nat} (h : showNat n = showNat m) : n = m := by
  have key : ∀ k : Nat, k ≠ 0 → showNat k ≠ ['0'] := by
    intro k hk hz
    have : (Nat.digits 10 k).reverse.map digit = [0].map digit := by
      rw [showNat, if_neg hk] at hz; simpa [digit] using hz
    have := map_digit_inj (digits_lt k) (by simp) this
    have h2 : Nat.digits 10 k = [0] := by simpa using congrArg List.reverse this
    have := congrArg (Nat.ofDigits 10) h2
    rw [Nat.ofDigits_digits] at this
    simp at this
    exact hk this
  by_cases hn : n = 0
  · by_cases hm : m = 0
    · rw [hn, hm]
    · subst hn
      exact absurd h.symm (key m hm)
  · by_cases hm : m = 0
    · subst hm
      exact absurd h (key n hn)
    · rw [showNat, showNat, if_neg hn, if_neg hm] at h
      have := map_digit_inj (digits_lt n) (digits_lt m) h
      have h2 : Nat.digits 10 n = Nat.digits 10 m := by simpa using congrArg List.reverse this
      have := congrArg (Nat.ofDigits 10) h2
      rwa [Nat.ofDigits_digits, Nat.ofDigits_digits] at this

theorem neg_not_mem_showNat (n : Nat) : '-' ∉ showNat n := fun h => by
  have := showNat_mem h; simp at this

theorem showInt_inj {z w : Int} (h : showInt z = showInt w) : z = w := by
  have hne : ∀ (a b : Nat), '-' :: showNat a ≠ showNat b := fun a b hab =>
    neg_not_mem_showNat b (hab ▸ by simp)
  unfold showInt at h
  split_ifs at h with h1 h2 h2
  · have := showNat_inj (List.cons.inj h).2; omega
  · exact absurd h (hne _ _)
  · exact absurd h.symm (hne _ _)
  · have := showNat_inj h; omega

theorem showInt_mem {z : Int} {ch : Char} (h : ch ∈ showInt z) :
    ch ∈ ['-', '0', '1', '2', '3', '4', '5', '6', '7', '8', '9'] := by
  unfold showInt at h
  split_ifs at h
  · rcases List.mem_cons.mp h with rfl | h
    · simp
    · exact List.mem_cons_of_mem _ (showNat_mem h)
  · exact List.mem_cons_of_mem _ (showNat_mem h)

theorem show6_inj {n m : Nat} (hn : n < 10 ^ 6) (hm : m < 10 ^ 6) (h : show6 n = show6 m) : n = m := by
  simp only [show6, List.cons.injEq, and_true] at h
  obtain ⟨h1, h2, h3, h4, h5, h6⟩ := h
  have lt : ∀ k : Nat, k % 10 < 10 := fun k => Nat.mod_lt _ (by norm_num)
  have e1 := digit_inj _ (lt _) _ (lt _) h1
  have e2 := digit_inj _ (lt _) _ (lt _) h2
  have e3 := digit_inj _ (lt _) _ (lt _) h3
  have e4 := digit_inj _ (lt _) _ (lt _) h4
  have e5 := digit_inj _ (lt _) _ (lt _) h5
  have e6 := digit_inj _ (lt _) _ (lt _) h6
  omega

theorem show6_mem {n : Nat} {ch : Char} (h : ch ∈ show6 n) :
    ch ∈ ['0', '1', '2', '3', '4', '5', '6', '7', '8', '9'] := by
  simp only [show6, List.mem_cons, List.not_mem_nil, or_false] at h
  rcases h with rfl | rfl | rfl | rfl | rfl | rfl <;> exact digit_mem _

/-- Splitting at the first separator. -/
theorem sep_inj {α : Type} {c : α} {a b r s : List α} (ha : c ∉ a) (hb : c ∉ b)
    (h : a ++ c :: r = b ++ c :: s) : a = b ∧ r = s := by
  induction a generalizing b with
  | nil =>
    cases b with
    | nil => simpa using h
    | cons x b =>
      simp only [List.nil_append, List.cons_append, List.cons.injEq] at h
      exact absurd (by simp [h.1]) hb
  | cons x a ih =>
    cases b with
    | nil =>
      simp only [List.nil_append, List.cons_append, List.cons.injEq] at h
      exact absurd (by simp [h.1]) ha
    | cons y b =>
      simp only [List.cons_append, List.cons.injEq] at h
      obtain ⟨h1, h2⟩ := ih (fun hx => ha (List.mem_cons_of_mem _ hx)) (fun hx => hb (List.mem_cons_of_mem _ hx)) h.2
      exact ⟨by rw [h.1, h1], h2⟩

theorem dot_not_mem_showNat (n : Nat) : '.' ∉ showNat n := fun h => by
  have := showNat_mem h; simp at this

theorem showDouble_inj {x y : ℚ} (h : showDouble x = showDouble y) : Same6 x y := by
  have hhead : ∀ (n m : Nat) (r s : Str), '-' :: (showNat n ++ r) ≠ showNat m ++ s := by
    intro n m r s hc
    cases hs : showNat m with
    | nil => exact showNat_ne_nil m hs
    | cons ch t =>
      rw [hs, List.cons_append] at hc
      have hm : ch ∈ showNat m := by rw [hs]; simp
      rw [← (List.cons.inj hc).1] at hm
      exact neg_not_mem_showNat m hm
  have core : ∀ (n m : Nat), showNat (n / 10 ^ 6) ++ '.' :: show6 (n % 10 ^ 6) =
      showNat (m / 10 ^ 6) ++ '.' :: show6 (m % 10 ^ 6) → n = m := by
    intro n m hc
    obtain ⟨h1, h2⟩ := sep_inj (dot_not_mem_showNat _) (dot_not_mem_showNat _) hc
    have e1 := showNat_inj h1
    have e2 := show6_inj (Nat.mod_lt _ (by norm_num)) (Nat.mod_lt _ (by norm_num)) h2
    rw [← Nat.div_add_mod n (10 ^ 6), ← Nat.div_add_mod m (10 ^ 6), e1, e2]
  unfold showDouble at h
  by_cases hx : x < 0 <;> by_cases hy : y < 0
  · simp only [hx, hy, if_true, List.cons_append, List.nil_append, List.cons.injEq, true_and] at h
    exact ⟨by simp [hx, hy], core _ _ h⟩
  · simp only [hx, hy, if_true, if_false, List.cons_append, List.nil_append] at h
    exact absurd h (hhead _ _ _ _)
  · simp only [hx, hy, if_true, if_false, List.cons_append, List.nil_append] at h
    exact absurd h.symm (hhead _ _ _ _)
  · simp only [hx, hy, if_false, List.nil_append] at h
    exact ⟨by simp [hx, hy], core _ _ h⟩

theorem showDouble_mem {x : ℚ} {ch : Char} (h : ch ∈ showDouble x) :
    ch ∈ ['.', '-', '0', '1', '2', '3', '4', '5', '6', '7', '8', '9'] := by
  unfold showDouble at h
  rcases List.mem_append.mp h with h | h
  · rcases List.mem_append.mp h with h | h
    · split_ifs at h <;> simp at h; simp [h]
    · exact List.mem_cons_of_mem _ (List.mem_cons_of_mem _ (showNat_mem h))
  · rcases List.mem_cons.mp h with rfl | h
    · simp
    · exact List.mem_cons_of_mem _ (List.mem_cons_of_mem _ (show6_mem h))

theorem showInt_not_mem (z : Int) {ch : Char} (h : ch ∉ ['-', '0', '1', '2', '3', '4', '5', '6', '7', '8', '9']) :
    ch ∉ showInt z := fun hm => h (showInt_mem hm)

theorem showDouble_not_mem (x : ℚ) {ch : Char}
    (h : ch ∉ ['.', '-', '0', '1', '2', '3', '4', '5', '6', '7', '8', '9']) : ch ∉ showDouble x :=
  fun hm => h (showDouble_mem hm)

/-- Reading off an integer that ends at a given character. -/
theorem int_field {z w : Int} {c : Char} (hc : c ∉ ['-', '0', '1', '2', '3', '4', '5', '6', '7', '8', '9'])
    {r s : Str} (h : showInt z ++ c :: r = showInt w ++ c :: s) : z = w ∧ r = s := by
  obtain ⟨h1, h2⟩ := sep_inj (showInt_not_mem z hc) (showInt_not_mem w hc) h
  exact ⟨showInt_inj h1, h2⟩

/-- Reading off a number that ends at a given character. -/
theorem double_field {x y : ℚ} {c : Char} (hc : c ∉ ['.', '-', '0', '1', '2', '3', '4', '5', '6', '7', '8', '9'])
    {r s : Str} (h : showDouble x ++ c :: r = showDouble y ++ c :: s) : Same6 x y ∧ r = s := by
  obtain ⟨h1, h2⟩ := sep_inj (showDouble_not_mem x hc) (showDouble_not_mem y hc) h
  exact ⟨showDouble_inj h1, h2⟩

end Verif.FileName
