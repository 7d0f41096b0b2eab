import Verif.Driver.Spec
import Verif.FileName.PropsRead

/-! C153: the command line. -/
namespace Verif.Driver

open Verif.FileName

theorem digits_append (l r : List Nat) (h : ∀ k ∈ l, k < 10) : digits (l.map digit ++ r.map digit) = l ++ digits (r.map digit) := by
  induction l with
  | nil => rfl
  | cons k l ih =>
    have hk := h k List.mem_cons_self
    have e : (digit k).isDigit = true ∧ (digit k).toNat - '0'.toNat = k := by
      interval_cases k <;> decide
    rw [List.map_cons, List.cons_append, digits, if_pos e.1, e.2, ih (fun x hx => h x (List.mem_cons_of_mem _ hx))]
    rfl

theorem digits_map (l : List Nat) (h : ∀ k ∈ l, k < 10) : digits (l.map digit) = l := by
  have := digits_append l [] h
  simpa [digits] using this

theorem foldl_digits (l : List Nat) (a : Nat) :
    l.foldl (fun a k => 10 * a + k) a = a * 10 ^ l.length + Nat.ofDigits 10 l.reverse := by
  induction l generalizing a with
  | nil => simp
  | cons k l ih =>
    rw [List.foldl_cons, ih, List.reverse_cons, Nat.ofDigits_append, List.length_cons, List.length_reverse]
    simp only [Nat.ofDigits_singleton]
    ring

theorem value_showNat (n : Nat) : value (digits (showNat n)) = n := by
  unfold showNat value
  split_ifs with h
  · subst h; decide
  · rw [digits_map _ (fun k hk => Nat.digits_lt_base (by norm_num) (List.mem_reverse.mp hk)), foldl_digits]
    rw [List.reverse_reverse, Nat.ofDigits_digits]
    simp

theorem showNat_head (n : Nat) : ∃ k l, k < 10 ∧ showNat n = digit k :: l := by
  unfold showNat
  split_ifs with h
  · exact ⟨0, [], by norm_num, rfl⟩
  · rcases hd : (Nat.digits 10 n).reverse with _ | ⟨k, l⟩
    · rw [List.reverse_eq_nil_iff, Nat.digits_eq_nil_iff_eq_zero] at hd
      exact absurd hd h
    · refine ⟨k, l.map digit, Nat.digits_lt_base (m := n) (by norm_num) (List.mem_reverse.mp ?_), rfl⟩
      rw [hd]; exact List.mem_cons_self

/-- **C153** (numbers).  An argument that is an integer as the program itself would print it is read as that integer if it
fits into an `int`; otherwise the behaviour is undefined. -/
theorem c153_numbers (z : Int) :
    atoi (showInt z) = if -(2 : Int) ^ 31 ≤ z ∧ z < 2 ^ 31 then .ok z else .error .undefined := by
  by_cases hz : z < 0
  · have e : showInt z = '-' :: showNat z.natAbs := by rw [showInt, if_pos hz]
    have hv : -(z.natAbs : Int) = z := by omega
    have hs : sign ((showInt z).dropWhile blank) = (true, showNat z.natAbs) := by rw [e]; rfl
    unfold atoi
    simp only [hs, value_showNat, hv, if_true]
  · have e : showInt z = showNat z.natAbs := by rw [showInt, if_neg hz]
    have hv : (z.natAbs : Int) = z := by omega
    have hs : sign ((showInt z).dropWhile blank) = (false, showNat z.natAbs) := by
      obtain ⟨k, l, hk, hs⟩ := showNat_head z.natAbs
      rw [e, hs]
      interval_cases k <;> rfl
    unfold atoi
    simp only [hs, value_showNat, hv, Bool.false_eq_true, if_false]

/-- **C153** (what holds).  With three arguments or more, the first two of which are integers, a calculation takes place
only if the configuration passes the checks; then it is the one that was asked for, with the requested number of loops and
nodes, and it is the only one. -/
theorem c153_asked_partial (g : Flags) (b : Build) (pi : ℚ) (atof : Str → ℚ) (n k : Int) (t : Str) (rest : List Str)
    (hn : -(2 : Int) ^ 31 ≤ n ∧ n < 2 ^ 31) (hk : -(2 : Int) ^ 31 ≤ k ∧ k < 2 ^ 31) :
    (∀ c nodes ts, main g b pi atof (showInt n :: showInt k :: t :: rest) = .ok (c, nodes, ts) →
      ts = (Asked n).toList ∧ c.nloops = n ∧ nodes = k ∧ (g.zeroTemp = false → c.T = atof t) ∧
        (b.phSymm = true → c.epsilon = -c.U / 2)) ∧
    ((∃ r, main g b pi atof (showInt n :: showInt k :: t :: rest) = .ok r) ↔
      g.ndebug = true ∨ ((b.maxDiag < 2 → n < 2) ∧ (g.equilibrium = true → |b.glbV| < 1 / 10 ^ 10))) := by
  have ts : tasks n = (Asked n).toList := by
    unfold tasks Asked
    by_cases h1 : n = 0
    · subst h1; decide
    · by_cases h2 : n = -2
      · subst h2; decide
      · by_cases h3 : 0 < n <;> simp [h1, h2, h3]
  have hci : checkInput g b (mainConfig g b pi n (atof t)) =
      if g.ndebug = true ∨ ((b.maxDiag < 2 → n < 2) ∧ (g.equilibrium = true → |b.glbV| < 1 / 10 ^ 10)) then .ok ()
      else .error .assertion := by
    unfold checkInput
    by_cases hd : g.ndebug = true
    · simp [hd]
    · have h1 : (g.zeroTemp = true → (mainConfig g b pi n (atof t)).T < 1 / 10 ^ 10) := by
        intro h; simp [mainConfig, h]
      have h2 : (b.phSymm = true → |(mainConfig g b pi n (atof t)).epsilon + (mainConfig g b pi n (atof t)).U * (1 / 2)| <
          1 / 10 ^ 10) := by
        intro h; simp only [mainConfig, h, if_true]; norm_num
      rw [if_neg hd]
      by_cases h : (b.maxDiag < 2 → n < 2) ∧ (g.equilibrium = true → |b.glbV| < 1 / 10 ^ 10)
      · rw [if_pos (Or.inr h), if_pos ⟨h.1, h1, h2, h.2⟩]
      · rw [if_neg (fun h' => h ⟨h'.1, h'.2.2.2⟩), if_neg (fun h' => h (h'.resolve_left hd))]
  have hmain : main g b pi atof (showInt n :: showInt k :: t :: rest) =
      if g.ndebug = true ∨ ((b.maxDiag < 2 → n < 2) ∧ (g.equilibrium = true → |b.glbV| < 1 / 10 ^ 10)) then
        .ok (mainConfig g b pi n (atof t), k, tasks n) else .error .assertion := by
    unfold main
    simp only [c153_numbers, if_pos hn, if_pos hk, hci]
    split_ifs <;> rfl
  constructor
  · intro c nodes l h
    rw [hmain] at h
    split_ifs at h
    simp only [Except.ok.injEq, Prod.mk.injEq] at h
    obtain ⟨rfl, rfl, rfl⟩ := h
    refine ⟨ts, rfl, rfl, fun h => by simp [mainConfig, h], fun h => by simp only [mainConfig, h, if_true]; norm_num⟩
  · rw [hmain]
    split_ifs with h
    · exact ⟨fun _ => h, fun _ => ⟨_, rfl⟩⟩
    · exact ⟨fun ⟨_, h'⟩ => h'.elim, fun h' => absurd h' h⟩

/-- **C153** fails for other numbers of loops: nothing is calculated and the program ends regularly. -/
theorem c153_nothing_refuted (n : Int) (h : n = -1 ∨ n < -2) : tasks n = [] := by
  unfold tasks
  rw [if_neg (by omega), if_neg (by omega), if_neg (by omega)]
  rfl

/-- **C153** fails for missing arguments: their number is printed but not checked, and the null pointer is read. -/
theorem c153_missing_refuted (g : Flags) (b : Build) (pi : ℚ) (atof : Str → ℚ) (args : List Str) (h : args.length < 3) :
    main g b pi atof args = .error .undefined := by
  rcases args with _ | ⟨a, _ | ⟨n, _ | ⟨t, l⟩⟩⟩
  · rfl
  · rfl
  · rfl
  · simp at h; omega

/-- **C153** fails for arguments that are no numbers: a first argument without digits at its beginning is taken as zero, so
that the parquet calculation is started (and overwrites earlier results). -/
theorem c153_letters_refuted (ch : Char) (s : Str) (h : ch.isAlpha = true) : atoi (ch :: s) = .ok 0 := by
  have h0 : ch.isDigit = false := by
    by_contra hd
    simp only [Bool.not_eq_false] at hd
    simp only [Char.isAlpha, Char.isUpper, Char.isLower, Char.isDigit, Bool.or_eq_true, Bool.and_eq_true,
      decide_eq_true_eq, ge_iff_le] at h hd
    rcases h with h | h
    · exact absurd (UInt32.le_trans h.1 hd.2) (by decide)
    · exact absurd (UInt32.le_trans h.1 hd.2) (by decide)
  have hne : ∀ x : Char, x.isAlpha = false → ch ≠ x := fun x hx e => by rw [e, hx] at h; exact absurd h (by decide)
  have hb : blank ch = false := by
    simp only [blank, List.contains_eq_mem, List.mem_cons, List.not_mem_nil, or_false, decide_eq_false_iff_not, not_or]
    exact ⟨hne _ (by decide), hne _ (by decide), hne _ (by decide), hne _ (by decide), hne _ (by decide), hne _ (by decide)⟩
  have hs : sign (ch :: s) = (false, ch :: s) := by
    unfold sign
    split
    · rename_i h7; injection h7 with h7; exact absurd h7 (hne _ (by decide))
    · rename_i h7; injection h7 with h7; exact absurd h7 (hne _ (by decide))
    · rfl
  have hd : digits (ch :: s) = [] := by rw [digits, h0]; rfl
  unfold atoi
  rw [List.dropWhile_cons, hb]
  simp only [Bool.false_eq_true, if_false, hs, hd]
  rfl

/-- **C153** (computing time, what holds).  The reported computing time is the product of the elapsed time, the number of
processes and the number of threads if there is one thread per process. -/
theorem c153_time_partial (elapsed : ℚ) (nodes : Nat) : cpuHours elapsed nodes 1 = elapsed / 3600 * nodes * (1 : Nat) := rfl

/-- **C153** fails for the computing time in general: it is too small by the factor of the number of threads. -/
theorem c153_time_refuted (elapsed : ℚ) (nodes team : Nat) :
    cpuHours elapsed nodes team * team = elapsed / 3600 * nodes * team := by
  simp [cpuHours, numThreads]

end Verif.Driver
