import Verif.Symmetries.Spec
import Mathlib.Tactic.FinCases
import Mathlib.Tactic.Ring
import Mathlib.Tactic.LinearCombination
import Mathlib.Algebra.Star.Basic

namespace Verif.Symmetries
open Verif.Freqs (Ch Fr Legs)
open Verif.Keldysh (iKToAlphas alphasToIK)

theorem bits_swapIn : ∀ iK < 16, ∀ k, bits (alphasToIK (swapAt (iKToAlphas iK) 2 3)) k = bits iK (swapIn k) := by
  decide +kernel

theorem bits_swapOut : ∀ iK < 16, ∀ k, bits (alphasToIK (swapAt (iKToAlphas iK) 0 1)) k = bits iK (swapOut k) := by
  decide +kernel

theorem bits_inOut : ∀ iK < 16, ∀ k,
    bits (alphasToIK (swapAt (swapAt (iKToAlphas iK) 0 2) 1 3)) k = bits iK (inOut k) := by
  decide +kernel

theorem lt_swapIn : ∀ iK < 16, alphasToIK (swapAt (iKToAlphas iK) 2 3) < 16 := by decide +kernel
theorem lt_swapOut : ∀ iK < 16, alphasToIK (swapAt (iKToAlphas iK) 0 1) < 16 := by decide +kernel
theorem lt_inOut : ∀ iK < 16, alphasToIK (swapAt (swapAt (iKToAlphas iK) 0 2) 1 3) < 16 := by decide +kernel

theorem odd_iff : ∀ iK < 16, (oddKeldysh.contains iK = true ↔ twos (bits iK) % 2 = 1) := by decide +kernel

theorem twos_inOut : ∀ iK < 16, twos (bits (alphasToIK (swapAt (swapAt (iKToAlphas iK) 0 2) 1 3))) =
    twos (bits iK) := by decide +kernel

theorem bits_zero_perm (π : Equiv.Perm (Fin 4)) : bits 0 ∘ π = bits 0 := by
  funext k; simp [bits]

theorem oddSign_eq (l : Bool) (iK : Nat) (h : iK < 16) (s : Int) :
    oddSign l iK s = s * conjSign l (bits iK) := by
  have := odd_iff iK h
  unfold oddSign conjSign
  have h2 : twos (bits iK) % 2 = 0 ∨ twos (bits iK) % 2 = 1 := by omega
  rcases h2 with h2 | h2
  · have hc : oddKeldysh.contains iK = false := by
      cases hh : oddKeldysh.contains iK
      · rfl
      · rw [this.1 hh] at h2; omega
    cases l <;> simp [h2] <;> simp_all
  · have hc := this.2 h2
    cases l <;> simp [h2] <;> simp_all

/-- Facts about the arguments that every transformation preserves. -/
def Ok {K : Type} (cfg : Cfg) (x : Ind K) : Prop :=
  x.iK < 16 ∧ x.spin < 2 ∧ (cfg.keldysh = false → x.iK = 0)

/-- The rounding convention: `lo` splits a bosonic frequency, `corr` is the resulting asymmetry. -/
structure Rounding {K : Type} [CommRing K] (W : K → Prop) (lo corr : K → K) : Prop where
  neg : ∀ w, W w → lo (-w) = lo w - w
  corr : ∀ w, W w → corr w = 2 * lo w - w
  closed : ∀ w, W w → W (-w)

variable {K R : Type} [CommRing K] [Ring R] [StarRing R]
variable {cfg : Cfg} {W : K → Prop} {lo corr : K → K} {V : Vertex K R} {x : Ind K}

theorem ok_T1 (h : Ok cfg x) : Ok cfg (T1 cfg corr x) := by
  obtain ⟨h1, h2, h3⟩ := h
  refine ⟨?_, ?_, ?_⟩
  · unfold T1; by_cases hk : cfg.keldysh = true <;> simp [hk, lt_swapIn _ h1, h1]
  · show 1 - x.spin < 2; omega
  · intro hk; simp [T1, hk, h3 hk]

theorem ok_T2 (h : Ok cfg x) : Ok cfg (T2 cfg corr x) := by
  obtain ⟨h1, h2, h3⟩ := h
  refine ⟨?_, ?_, ?_⟩
  · unfold T2; by_cases hk : cfg.keldysh = true <;> simp [hk, lt_swapOut _ h1, h1]
  · show 1 - x.spin < 2; omega
  · intro hk; simp [T2, hk, h3 hk]

theorem ok_TC (h : Ok cfg x) : Ok cfg (TC cfg corr x) := by
  obtain ⟨h1, h2, h3⟩ := h
  refine ⟨?_, ?_, ?_⟩
  · unfold TC; by_cases hk : cfg.keldysh = true <;> simp [hk, lt_inOut _ h1, h1]
  · unfold TC; simpa using h2
  · intro hk; simp [TC, hk, h3 hk]

theorem ok_Tph (h : Ok cfg x) : Ok cfg (Tph cfg x) := by
  unfold Tph; split <;> exact h

theorem ok_TR (h : Ok cfg x) : Ok cfg (TR cfg corr x) := by
  unfold TR; split <;> exact h

theorem w_T1 (hr : Rounding W lo corr) (h : W x.f.w) : W (T1 cfg corr x).f.w := by
  unfold T1; dsimp only; split
  · exact h
  · have := hr.closed _ h; simpa using this

theorem w_T2 (h : W x.f.w) : W (T2 cfg corr x).f.w := by
  unfold T2; dsimp only; split <;> exact h

theorem w_TC (hr : Rounding W lo corr) (h : W x.f.w) : W (TC cfg corr x).f.w := by
  have h1 := hr.closed _ h
  unfold TC; dsimp only; split <;> split <;> simp <;> assumption

theorem w_Tph (hr : Rounding W lo corr) (h : W x.f.w) : W (Tph cfg x).f.w := by
  have h1 := hr.closed _ h
  unfold Tph; split <;> simpa

theorem w_TR (hr : Rounding W lo corr) (h : W x.f.w) : W (TR cfg corr x).f.w := by
  have h1 := hr.closed _ h
  unfold TR; split <;> simpa

/-- Legs after exchanging the incoming legs. -/
theorem legs_T1 (hr : Rounding W lo corr) (h : W x.f.w) :
    legFun (legsR lo (T1 cfg corr x).ch (T1 cfg corr x).f) = legFun (legsR lo x.ch x.f) ∘ swapIn := by
  have h1 := hr.neg _ h; have h2 := hr.corr _ h
  funext k
  rcases x with ⟨iK, s, ⟨w, v1, v2⟩, c, p, cj, as⟩
  cases c <;> fin_cases k <;>
    simp [T1, switchChannel, legsR, legFun, swapIn, Equiv.swap_apply_def] <;>
    simp at h1 h2 <;> (try rw [h1]) <;> (try rw [h2]) <;> ring

theorem legs_T2 (hr : Rounding W lo corr) (h : W x.f.w) :
    legFun (legsR lo (T2 cfg corr x).ch (T2 cfg corr x).f) = legFun (legsR lo x.ch x.f) ∘ swapOut := by
  have h1 := hr.neg _ h; have h2 := hr.corr _ h
  funext k
  rcases x with ⟨iK, s, ⟨w, v1, v2⟩, c, p, cj, as⟩
  cases c <;> fin_cases k <;>
    simp [T2, switchChannel, legsR, legFun, swapOut, Equiv.swap_apply_def] <;>
    simp at h1 h2 <;> (try rw [h1]) <;> (try rw [h2]) <;> ring

theorem legs_TC (hr : Rounding W lo corr) (h : W x.f.w) (hk : cfg.keldysh = true) :
    legFun (legsR lo (TC cfg corr x).ch (TC cfg corr x).f) = legFun (legsR lo x.ch x.f) ∘ inOut := by
  have h1 := hr.neg _ h
  funext k
  rcases x with ⟨iK, s, ⟨w, v1, v2⟩, c, p, cj, as⟩
  cases c <;> fin_cases k <;>
    simp [TC, legsR, legFun, inOut, hk, Equiv.swap_apply_def] <;>
    simp at h1 <;> (try rw [h1]) <;> ring

theorem legs_TC' (hr : Rounding W lo corr) (h : W x.f.w) (hk : cfg.keldysh = false) :
    legFun (legsR lo (TC cfg corr x).ch (TC cfg corr x).f) =
      fun k => - legFun (legsR lo x.ch x.f) (inOut k) := by
  have h1 := hr.neg _ h; have h2 := hr.corr _ h; have h3 := hr.corr _ (hr.closed _ h)
  funext k
  rcases x with ⟨iK, s, ⟨w, v1, v2⟩, c, p, cj, as⟩
  cases c <;> fin_cases k <;>
    simp [TC, legsR, legFun, inOut, hk, Equiv.swap_apply_def] <;>
    simp at h1 h2 h3 <;> (try rw [h3]) <;> (try rw [h2]) <;> (try rw [h1]) <;> ring

theorem legs_Tph (hr : Rounding W lo corr) (h : W x.f.w) (hz : ∀ w, W w → 2 * lo w = w)
    (hk : cfg.keldysh = true) (hp : cfg.ph = true) :
    legFun (legsR lo (Tph cfg x).ch (Tph cfg x).f) = fun k => - legFun (legsR lo x.ch x.f) k := by
  have h1 := hr.neg _ h; have h2 := hz _ h
  funext k
  rcases x with ⟨iK, s, ⟨w, v1, v2⟩, c, p, cj, as⟩
  simp at h1 h2
  cases c <;> fin_cases k <;>
    simp [Tph, legsR, legFun, hk, hp] <;> (try rw [h1]) <;>
    first | linear_combination h2 | linear_combination -h2 | ring

theorem legs_TR (hr : Rounding W lo corr) (h : W x.f.w) (hk : cfg.keldysh = false) :
    legFun (legsR lo (TR cfg corr x).ch (TR cfg corr x).f) = fun k => - legFun (legsR lo x.ch x.f) k := by
  have h1 := hr.neg _ h; have h3 := hr.corr _ (hr.closed _ h)
  funext k
  rcases x with ⟨iK, s, ⟨w, v1, v2⟩, c, p, cj, as⟩
  simp at h1 h3
  cases c <;> fin_cases k <;>
    simp [TR, legsR, legFun, hk] <;> (try rw [h3]) <;> (try rw [h1]) <;> ring

end Verif.Symmetries
