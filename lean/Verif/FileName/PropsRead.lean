import Verif.FileName.Props
import Mathlib.Tactic.Linarith
import Mathlib.Tactic.NormNum
import Mathlib.Tactic.IntervalCases

/-
C68: the numbers printed in a file name are the ones of the configuration, and further parts of the name.
-/
namespace Verif.FileName

/-- Reading of decimal digits. -/
def decode (s : Str) : Nat := s.foldl (fun a ch => 10 * a + (ch.toNat - '0'.toNat)) 0

theorem digit_val : ∀ d < 10, (digit d).toNat - '0'.toNat = d := by decide

theorem decode_map (l : List Nat) (h : ∀ d ∈ l, d < 10) : decode (l.map digit) = Nat.ofDigits 10 l.reverse := by
  have gen : ∀ (l : List Nat) (a : Nat), (∀ d ∈ l, d < 10) →
      (l.map digit).foldl (fun a ch => 10 * a + (ch.toNat - '0'.toNat)) a = a * 10 ^ l.length + Nat.ofDigits 10 l.reverse := by
    intro l
    induction l with
    | nil => intro a _; simp
    | cons d l ih =>
      intro a hd
      rw [List.map_cons, List.foldl_cons, ih _ fun x hx => hd x (by simp [hx]), digit_val d (hd d (by simp)),
        List.reverse_cons, Nat.ofDigits_append, List.length_cons, List.length_reverse, Nat.ofDigits_singleton, pow_succ]
      ring
  have := gen l 0 h
  simpa [decode] using this

/-- **C68** (whole numbers). The printed digits of a whole number read back as the number. -/
theorem c68_digits (n : Nat) : decode (showNat n) = n := by
  unfold showNat
  split_ifs with h
  · subst h; decide
  · rw [decode_map _ (digits_lt n), List.reverse_reverse, Nat.ofDigits_digits]

/-- **C68** (integers). An integer is printed as its decimal digits, with a minus sign exactly if it is negative. -/
theorem c68_integer (z : Int) : ∃ ds, showInt z = (if z < 0 then ['-'] else []) ++ ds ∧ '-' ∉ ds ∧
    decode ds = z.natAbs := by
  refine ⟨showNat z.natAbs, ?_, ?_, c68_digits _⟩
  · unfold showInt; split_ifs <;> rfl
  · have hd : ∀ d, digit d ≠ '-' := by
      intro d h
      have := digit_mem d
      rw [h] at this
      revert this; decide
    unfold showNat
    split_ifs
    · decide
    · simp [hd]

/-- **C68** fails for the gate voltage in the directory: whatever the executable, results for all level positions go to
the same directory (the line that adds the gate voltage is never compiled). -/
theorem c68_gate_refuted (b : Build) (c : Config) (ε : ℚ) :
    directory b (job b { c with epsilon := ε }) = directory b (job b c) := rfl

theorem decode_show6 (m : Nat) (h : m < 10 ^ 6) : decode (show6 m) = m := by
  have : show6 m = [m / 100000 % 10, m / 10000 % 10, m / 1000 % 10, m / 100 % 10, m / 10 % 10, m % 10].map digit := rfl
  rw [this, decode_map]
  · simp [Nat.ofDigits]
    omega
  · intro d hd
    simp only [List.mem_cons, List.not_mem_nil, or_false] at hd
    rcases hd with h | h | h | h | h | h <;> omega

/-- Rounding is to a nearest integer, and to the even one of two. -/
theorem roundEven_spec (y : ℚ) : |y - roundEven y| ≤ 1 / 2 ∧ (|y - roundEven y| = 1 / 2 → roundEven y % 2 = 0) := by
  have h0 := Int.floor_le y
  have h1 := Int.lt_floor_add_one y
  simp only [roundEven]
  split_ifs with a b c
  · rw [abs_of_nonneg (by linarith)]
    exact ⟨a.le, fun h => by linarith⟩
  · push_cast
    rw [abs_of_nonpos (by linarith)]
    exact ⟨by linarith, fun h => by linarith⟩
  · rw [abs_of_nonneg (by linarith)]
    exact ⟨by linarith, fun _ => c⟩
  · push_cast
    rw [abs_of_nonpos (by linarith)]
    exact ⟨by linarith, fun _ => by omega⟩

theorem roundEven_nonneg {y : ℚ} (h : 0 ≤ y) : 0 ≤ roundEven y := by
  have := Int.floor_nonneg.mpr h
  simp only [roundEven]
  split_ifs <;> omega

/-- **C68** (decimal numbers). A parameter is printed with its sign and six digits after the point, and what is printed
differs from the parameter by at most half a unit of the last digit. -/
theorem c68_decimal (x : ℚ) : ∃ ip fp, showDouble x = (if x < 0 then ['-'] else []) ++ ip ++ '.' :: fp ∧
    fp.length = 6 ∧ ip ≠ [] ∧ |(decode ip + decode fp / 10 ^ 6 : ℚ) - abs x| ≤ 1 / 2 / 10 ^ 6 := by
  refine ⟨_, _, rfl, rfl, showNat_ne_nil _, ?_⟩
  rw [c68_digits, decode_show6 _ (Nat.mod_lt _ (by norm_num))]
  have hn : (0 : ℚ) ≤ |x| * 10 ^ 6 := by positivity
  have h1 := (roundEven_spec (|x| * 10 ^ 6)).1
  have h2 : ((micro x : ℕ) : ℚ) = (roundEven (|x| * 10 ^ 6) : ℚ) := by
    have := Int.natAbs_of_nonneg (roundEven_nonneg hn)
    rw [micro, ← Int.cast_natCast, this]
  have h3 : ((micro x / 10 ^ 6 : ℕ) : ℚ) + ((micro x % 10 ^ 6 : ℕ) : ℚ) / 10 ^ 6 = (micro x : ℚ) / 10 ^ 6 := by
    have : ((micro x : ℕ) : ℚ) = ((10 ^ 6 * (micro x / 10 ^ 6) + micro x % 10 ^ 6 : ℕ) : ℚ) := by
      rw [Nat.div_add_mod]
    rw [this]; push_cast; ring
  rw [h3, h2]
  rw [abs_le] at h1 ⊢
  constructor <;> norm_num at h1 ⊢ <;> linarith

/-- **C68** (initial scale). The scale is printed rounded towards zero. -/
theorem c68_scale (x : ℚ) : |(toInt x : ℚ)| ≤ |x| ∧ |x| < |(toInt x : ℚ)| + 1 ∧ 0 ≤ x * toInt x := by
  have key : ∀ y : ℚ, 0 ≤ y → (0 : ℚ) ≤ (⌊y⌋ : ℚ) ∧ (⌊y⌋ : ℚ) ≤ y ∧ y < ⌊y⌋ + 1 := fun y hy =>
    ⟨by exact_mod_cast Int.floor_nonneg.mpr hy, Int.floor_le y, Int.lt_floor_add_one y⟩
  unfold toInt
  split_ifs with h
  · obtain ⟨a, b, c⟩ := key (-x) (by linarith)
    push_cast
    rw [abs_of_nonpos (by linarith), abs_of_neg h]
    refine ⟨by linarith, by linarith, by nlinarith⟩
  · push Not at h
    obtain ⟨a, b, c⟩ := key x h
    rw [abs_of_nonneg a, abs_of_nonneg h]
    exact ⟨b, c, mul_nonneg h a⟩

/-- Last character of a printed number. -/
theorem showNat_last (n : Nat) (l : Str) : ∃ d l', l ++ showNat n = l' ++ [digit d] := by
  unfold showNat
  split_ifs with h
  · exact ⟨0, l, rfl⟩
  · rcases List.eq_nil_or_concat (Nat.digits 10 n).reverse with h' | ⟨m, d, h'⟩
    · rw [List.reverse_eq_nil_iff, Nat.digits_eq_nil_iff_eq_zero] at h'
      exact absurd h' h
    · exact ⟨d, l ++ m.map digit, by simp [h']⟩

theorem showInt_last (z : Int) (l : Str) : ∃ d l', l ++ showInt z = l' ++ [digit d] := by
  unfold showInt
  split_ifs
  · obtain ⟨d, l', h⟩ := showNat_last z.natAbs (l ++ ['-'])
    exact ⟨d, l', by simpa using h⟩
  · exact showNat_last _ _

theorem showDouble_last (x : ℚ) (l : Str) : ∃ d l', l ++ showDouble x = l' ++ [digit d] :=
  ⟨micro x % 10 ^ 6 % 10, l ++ ((if x < 0 then ['-'] else []) ++ showNat (micro x / 10 ^ 6) ++
    ['.', digit (micro x % 10 ^ 6 / 100000 % 10), digit (micro x % 10 ^ 6 / 10000 % 10),
      digit (micro x % 10 ^ 6 / 1000 % 10), digit (micro x % 10 ^ 6 / 100 % 10), digit (micro x % 10 ^ 6 / 10 % 10)]), by
    simp [showDouble, show6]⟩

theorem digit_ne_E (d : Nat) : digit d ≠ 'E' := fun h => by
  have := digit_mem d
  rw [h] at this
  revert this; decide

/-- The character before the final slash of the directory is an `E` exactly if the build uses the decomposition. -/
theorem directory_E (b : Build) (c : Config) : ∃ l ch, directory b (job b c) = l ++ [ch, '/'] ∧ (ch = 'E' ↔ b.sbe = true) := by
  cases hs : b.sbe
  · have jl : ∀ l : Str, ∃ d l', l ++ job b c = l' ++ [digit d] := by
      intro l
      simp only [job, hs, Bool.false_eq_true, if_false, List.append_nil, ← List.append_assoc]
      exact showDouble_last _ _
    cases hk : b.keldysh <;> cases hd : b.debugSymm
    · obtain ⟨d, l', h⟩ := jl "../Data_MF".toList
      refine ⟨l', digit d, ?_, by simp [digit_ne_E]⟩
      simp only [directory, hk, hd, hs, Bool.false_eq_true, if_false, List.append_nil, h]
      simp
    · exact ⟨"../Data_MF_debu".toList, 'g', by simp [directory, hk, hd, hs], by simp⟩
    · obtain ⟨d, l', h⟩ := showInt_last b.REG ("../Data_KF".toList ++ job b c ++ ['_', 'R', 'E', 'G', '='])
      refine ⟨l', digit d, ?_, by simp [digit_ne_E]⟩
      simp only [directory, hk, hd, hs, Bool.false_eq_true, if_false, if_true, List.append_nil, h]
      simp
    · exact ⟨"../Data_KF_debu".toList, 'g', by simp [directory, hk, hd, hs], by simp⟩
  · have ends : ∀ x : Str, x ++ ['_', 'S', 'B', 'E'] ++ ['/'] = (x ++ ['_', 'S', 'B']) ++ ['E', '/'] := fun x => by simp
    unfold directory
    rw [if_pos hs]
    exact ⟨_, 'E', ends _, by simp⟩

/-- **C68** (decomposition). Results of builds with and without the single-boson-exchange decomposition never share a
path. -/
theorem c68_sbe_partial (b b' : Build) (c c' : Config) (h : path b c = path b' c') : b.sbe = b'.sbe := by
  have hd := (path_split h).2
  obtain ⟨l, ch, e, hE⟩ := directory_E b c
  obtain ⟨l', ch', e', hE'⟩ := directory_E b' c'
  rw [e, e'] at hd
  have : ch = ch' := by
    have := congrArg List.reverse hd
    simp at this
    exact this.1
  rw [Bool.eq_iff_iff, ← hE, ← hE', this]

end Verif.FileName
