import Verif.Check.Props
import Verif.Reduce.PropsParts

/-! C134: what the symmetry check does not notice, and what it prints. -/
namespace Verif.Check
open Verif.Symmetries
open Verif.Freqs (Ch Fr legs)

/-! ### The printed number -/

section
variable {F : Type} [Field F] [LinearOrder F] [IsStrictOrderedRing F]

theorem foldl_max_le (l : List F) : ∀ a : F, a ≤ l.foldl max a ∧ ∀ d ∈ l, d ≤ l.foldl max a := by
  induction l with
  | nil => intro a; exact ⟨le_rfl, by simp⟩
  | cons b l ih =>
    intro a
    obtain ⟨h1, h2⟩ := ih (max a b)
    refine ⟨(le_max_left _ _).trans h1, ?_⟩
    intro d hd
    rcases List.mem_cons.1 hd with rfl | hd
    · exact (le_max_right _ _).trans h1
    · exact h2 d hd

theorem maxNorm_zero {l : List F} (h : ∀ d ∈ l, 0 ≤ d) : maxNorm l = 0 ↔ ∀ d ∈ l, d = 0 := by
  constructor
  · intro h0 d hd
    have := (foldl_max_le l 0).2 d hd
    unfold maxNorm at h0
    rw [h0] at this
    exact le_antisymm this (h d hd)
  · intro h0
    unfold maxNorm
    have key : ∀ l : List F, (∀ d ∈ l, d = 0) → l.foldl max 0 = 0 := by
      intro l
      induction l with
      | nil => intro _; rfl
      | cons b l ih =>
        intro hl
        have hb := hl b (by simp)
        simp only [List.foldl_cons]
        rw [hb, max_self]
        exact ih fun d hd => hl d (by simp [hd])
    exact key l h0

/-- C134: if a number is printed, it is zero exactly if all deviations are zero, and every deviation is at most this
number times the largest entry. -/
theorem c134_printed {tiny : F} (ht : 0 ≤ tiny) {values deviations : List F} (hd : ∀ d ∈ deviations, 0 ≤ d) {r : F}
    (h : printed tiny values deviations = some r) :
    (r = 0 ↔ ∀ d ∈ deviations, d = 0) ∧ ∀ d ∈ deviations, d ≤ r * maxNorm values := by
  unfold printed at h
  split at h
  · rename_i hlt
    have hpos : 0 < maxNorm values := lt_of_le_of_lt ht hlt
    cases h
    constructor
    · rw [div_eq_zero_iff, maxNorm_zero hd]
      constructor
      · rintro (h | h)
        · exact h
        · exact absurd h hpos.ne'
      · exact .inl
    · intro d hdm
      rw [div_mul_cancel₀ _ hpos.ne']
      exact (foldl_max_le deviations 0).2 d hdm
  · cases h

example : printed (1 / 1000 : ℚ) [2, 4, 0] [0, 1, 1] = some (1 / 4) := by decide +kernel

/-- C134: a buffer that vanishes is never reported on, whatever the deviations are; the file then contains no number. -/
theorem c134_silent {tiny : F} (ht : 0 ≤ tiny) {values : List F} (hv : ∀ d ∈ values, d = 0) (deviations : List F) :
    printed tiny values deviations = none ∧ ∀ o ∈ saved values deviations, o = none := by
  have h0 : maxNorm values = 0 := (maxNorm_zero (fun d hd => (hv d hd).ge)).2 hv
  constructor
  · unfold printed
    rw [h0, if_neg (not_lt.2 ht)]
  · intro o ho
    unfold saved at ho
    rw [h0] at ho
    simp only [if_true] at ho
    obtain ⟨d, _, rfl⟩ := List.mem_map.1 ho
    rfl

/-- C134: if the buffer does not vanish, the file contains for every entry its deviation in units of the largest entry, in the same order. -/
theorem c134_saved {values : List F} (hv : ∀ d ∈ values, 0 ≤ d) (hne : ∃ d ∈ values, d ≠ 0) (deviations : List F) :
    (saved values deviations).length = deviations.length ∧
    ∀ (i : Nat) (d : F), deviations[i]? = some d → ∃ x, (saved values deviations)[i]? = some (some x) ∧ x * maxNorm values = d := by
  have h0 : maxNorm values ≠ 0 := fun h => by
    obtain ⟨d, hd, hn⟩ := hne
    exact hn ((maxNorm_zero hv).1 h d hd)
  refine ⟨by simp [saved], fun i d hd => ⟨d * (1 / maxNorm values), ?_, ?_⟩⟩
  · simp [saved, hd, h0]
  · rw [mul_assoc, one_div, inv_mul_cancel₀ h0, mul_one]

example : saved [2, 4, 0] [0, 1, (3 : ℚ)] = [some 0, some (1 / 4), some (3 / 4)] := by decide +kernel

end

/-! ### Violations that go unnoticed -/

/-- A vertex with a single non-zero number, in a component of `K1` of the channels `a` and `t` that causality forbids
and conjugation requires to be imaginary. -/
def wrong : Vtx ℚ ℚ := fun c k =>
  { grid := grid3
    data := fun n => if k = .k1 ∧ c ≠ .p ∧ n.iK = 0 then (if n.spin = 0 then 1 else -1) else 0 }

theorem wrong_common : Common wrong (fun _ => grid3) := ⟨fun _ _ => rfl, fun _ => grid3_good, rfl⟩

theorem wrong_k1 : ∀ c : Ch, ∀ s < 2, ∀ iw < 3, ∀ iK < 16,
    (deviation ⟨true, true, false⟩ 0 wrong c .k1 ⟨s, iw, 0, 0, iK⟩).toOption = some 0 := by
  intro c; cases c <;> decide +kernel

/-- C134 as "no deviations, no violation" is false: a vertex that violates causality and conjugation symmetry passes
the check in all channels, classes and entries. -/
theorem c134_blind_refuted :
    (∀ c k n, Valid k grid3 n → deviation ⟨true, true, false⟩ 0 wrong c k n = .ok 0) ∧
    (∀ P : Physical ℚ ℚ, Stores P wrong → ¬ P.Symmetric ⟨true, true, false⟩) ∧
    (∃ n, Valid .k1 grid3 n ∧ vanishes .a .k1 n.iK = true ∧ (wrong .a .k1).data n ≠ 0) := by
  refine ⟨?_, ?_, ⟨⟨0, 0, 0, 0, 0⟩, ⟨by decide, by decide, by decide, rfl, rfl⟩, by decide, by decide +kernel⟩⟩
  · intro c k n hn
    by_cases hk : k = .k1
    · subst hk
      rcases n with ⟨s, iw, iv, ivp, iK⟩
      obtain ⟨h1, h2, h3, h4, h5⟩ := hn
      simp only at h1 h2 h3 h4 h5
      subst h4 h5
      have := wrong_k1 c s h1 iw h2 iK h3
      generalize hd : deviation ⟨true, true, false⟩ 0 wrong c .k1 ⟨s, iw, 0, 0, iK⟩ = r at this
      rcases r with e | r
      · cases this
      · simp only [Except.toOption, Option.some.injEq] at this
        rw [this]
    · obtain ⟨i, y, kk, m, h1, h2, h3, h4, h5⟩ := deviation_eq (cfg := ⟨true, true, false⟩) (ε := (0 : ℚ)) le_rfl
        wrong_common c k hn (by simp)
      have hkk : kk ≠ .k1 := by
        rcases h2 with ⟨_, rfl, _⟩ | ⟨_, rfl, _⟩
        · exact hk
        · simp
      rw [h5]
      simp [wrong, hk, hkk, applyRead]
  · intro P hst hP
    have hval : ∀ n, Valid .k1 grid3 n → (wrong .a .k1).data n = P.val .k1 .a n.spin n.iK (freq .k1 grid3 n) :=
      fun n hn => hst .a .k1 n hn
    have h1 := hval ⟨0, 1, 0, 0, 0⟩ ⟨by decide, by decide, by decide, rfl, rfl⟩
    have hw : grid3.w 1 = 0 := by decide +kernel
    have e1 : (wrong .a .k1).data ⟨0, 1, 0, 0, 0⟩ = 1 := by decide +kernel
    rw [e1] at h1
    simp only [Physical.val, freq, hw] at h1
    have h2 := hP.sym1.conjK rfl false .a 0 (bits 0) (legFun (legs (.ch .a) ⟨0, 0, 0⟩)) (by omega)
    have e2 : bits 0 ∘ inOut = bits 0 := by funext k; fin_cases k <;> rfl
    have e3 : legFun (legs (.ch .a) (⟨0, 0, 0⟩ : Fr ℚ)) ∘ inOut = legFun (legs (.ch .a) ⟨0, 0, 0⟩) := by
      funext k
      have : ∀ k, legFun (legs (.ch .a) (⟨0, 0, 0⟩ : Fr ℚ)) k = 0 := by
        intro k; fin_cases k <;> simp [legFun, legs]
      simp [this]
    have e4 : (conjSign false (bits 0) : ℤ) = -1 := by decide
    have e5 : xor false (sideFlip .a .a inOut) = true := by decide
    rw [e2, e3, e5, hP.mir1, ← h1] at h2
    simp only [e4] at h2
    norm_num at h2

/-- C134: a vertex whose class `K2b` is missing altogether is not reported: the deviations of its entries are not zero,
but nothing is printed. -/
def missing : Vtx ℚ ℚ := fun _ k => { grid := grid3, data := fun _ => if k = .k2 then 1 else 0 }

theorem c134_missing_refuted :
    (∃ n, Valid .k2b grid3 n ∧ (deviation ⟨true, true, false⟩ 0 missing .a .k2b n).toOption = some (-1)) ∧
    ∀ (l : List Key) (d : List ℚ), printed (1 / 10 ^ 30) (l.map fun n => |(missing .a .k2b).data n|) d = none := by
  refine ⟨⟨⟨0, 1, 0, 1, 1⟩, ⟨by decide, by decide, by decide, rfl, by decide⟩, by decide +kernel⟩, ?_⟩
  intro l d
  refine (c134_silent (by positivity) ?_ d).1
  intro x hx
  obtain ⟨n, _, rfl⟩ := List.mem_map.1 hx
  simp [missing]

/-! ### A case that meets the hypotheses -/

/-- A constant vertex in the components with an odd number of indices 2. -/
def level : Vertex ℚ ℂ where
  val _ _ s α _ := (if s = 0 then 1 else -1) * (if twos α % 2 = 0 then 0 else 1)

theorem level_sym : Sym ⟨true, true, false⟩ level where
  crossIn h c s α ν hs := by
    have hs : s = 0 ∨ s = 1 := by omega
    have ht := Reduce.twos_perm α swapIn (by simp)
    rcases hs with rfl | rfl <;> simp [level, ht]
  crossOut h c s α ν hs := by
    have hs : s = 0 ∨ s = 1 := by omega
    have ht := Reduce.twos_perm α swapOut (by simp)
    rcases hs with rfl | rfl <;> simp [level, ht]
  conjK _ h c s α ν hs := by
    have hs : s = 0 ∨ s = 1 := by omega
    have hc : twos α % 2 = 0 ∨ twos α % 2 = 1 := by omega
    have ht := Reduce.twos_perm α inOut (by simp)
    rcases hs with rfl | rfl <;> rcases hc with hc | hc <;> simp [level, ht, hc, conjSign]
  conjM h := by cases h
  ph _ _ h c s α ν hs := by
    have hs : s = 0 ∨ s = 1 := by omega
    have hc : twos α % 2 = 0 ∨ twos α % 2 = 1 := by omega
    rcases hs with rfl | rfl <;> rcases hc with hc | hc <;> simp [level, hc, conjSign]
  tr h := by cases h
  real h := by cases h

/-- A vertex whose classes `K2` and `K2b` depend on the energies of their legs. -/
noncomputable def sample : Physical ℚ ℂ := ⟨level, Reduce.sided, level⟩

theorem sample_symmetric : sample.Symmetric ⟨true, true, false⟩ where
  sym1 := level_sym
  sym2 := Reduce.sided_sym true
  sym3 := level_sym
  mir1 _ _ _ _ := rfl
  mir3 _ _ _ _ := rfl
  ind1 _ _ _ _ _ _ _ _ := rfl
  ind2 c s iK w v v' u' := by
    cases c <;> simp [Physical.val, sample, Reduce.sided, leftLegs, legFun, legs]
  ind2b c s iK w v v' u := by
    cases c <;> simp [Physical.val, sample, Reduce.sided, Reduce.rightLegs, legFun, legs]

/-- It passes the check, and is not zero. -/
example : (∀ c k n, Valid k grid3 n → deviation ⟨true, true, false⟩ (0 : ℚ)
      (fun c k => { grid := grid3, data := fun n => sample.val k c n.spin n.iK (freq k grid3 n) }) c k n = .ok 0) ∧
    sample.val .k2 .a 0 1 ⟨1, 1, 0⟩ ≠ 0 := by
  refine ⟨fun c k n hn => c134_zero le_rfl sample_symmetric (fun _ _ _ _ => rfl)
    (g := fun _ => grid3) ⟨fun _ _ => rfl, fun _ => grid3_good, rfl⟩ c k hn (by simp), ?_⟩
  have ht : twos (bits 1) = 1 := by decide
  simp [Physical.val, sample, Reduce.sided, leftLegs, legFun, legs, ht]
  norm_num

end Verif.Check
