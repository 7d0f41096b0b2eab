import Verif.Symmetries.Lemmas

/-! Every transformation leaves the value read from a symmetric vertex unchanged. -/
namespace Verif.Symmetries
open Verif.Freqs (Ch Fr Legs)
open Verif.Keldysh (iKToAlphas alphasToIK)

variable {K R : Type} [CommRing K] [CommRing R] [StarRing R]
variable {cfg : Cfg} {W : K → Prop} {lo corr : K → K} {V : Vertex K R} {x : Ind K}

theorem bits_T1 (h : Ok cfg x) : bits (T1 cfg corr x).iK = bits x.iK ∘ swapIn := by
  funext k
  by_cases hk : cfg.keldysh = true
  · simp [T1, hk, bits_swapIn _ h.1]
  · have h0 := h.2.2 (by simpa using hk)
    simp [T1, hk, h0, bits]

theorem bits_T2 (h : Ok cfg x) : bits (T2 cfg corr x).iK = bits x.iK ∘ swapOut := by
  funext k
  by_cases hk : cfg.keldysh = true
  · simp [T2, hk, bits_swapOut _ h.1]
  · have h0 := h.2.2 (by simpa using hk)
    simp [T2, hk, h0, bits]

theorem bits_TC (h : Ok cfg x) : bits (TC cfg corr x).iK = bits x.iK ∘ inOut := by
  funext k
  by_cases hk : cfg.keldysh = true
  · simp [TC, hk, bits_inOut _ h.1]
  · have h0 := h.2.2 (by simpa using hk)
    simp [TC, hk, h0, bits]

theorem asym_T1 : (T1 cfg corr x).asym = xor x.asym (sideFlip x.ch (crossed x.ch) swapIn) := by
  have e : ∀ c, sideFlip c (crossed c) swapIn = if c = .p then false else true := by
    intro c; cases c <;> decide
  rw [e]; unfold T1; dsimp only; split <;> simp

theorem asym_T2 : (T2 cfg corr x).asym = xor x.asym (sideFlip x.ch (crossed x.ch) swapOut) := by
  have e : ∀ c, sideFlip c (crossed c) swapOut = false := by
    intro c; cases c <;> decide
  rw [e]; simp [T2]

theorem asym_TC : (TC cfg corr x).asym = xor x.asym (sideFlip x.ch x.ch inOut) := by
  have e : ∀ c, sideFlip c c inOut = if c = .t then false else true := by
    intro c; cases c <;> decide
  rw [e]; unfold TC; dsimp only; split <;> simp

theorem ch_T1 : (T1 cfg corr x).ch = crossed x.ch := by
  unfold T1; cases x.ch <;> rfl

theorem ch_T2 : (T2 cfg corr x).ch = crossed x.ch := by
  unfold T2; cases x.ch <;> rfl

theorem read_T1 (hs : Sym cfg V) (hr : Rounding W lo corr) (h : Ok cfg x) (hw : W x.f.w) :
    read cfg lo V x = read cfg lo V (T1 cfg corr x) := by
  unfold read
  rw [legs_T1 hr hw, bits_T1 h, asym_T1, ch_T1]
  have e1 : (T1 cfg corr x).spin = 1 - x.spin := rfl
  rw [e1, hs.crossIn x.asym x.ch x.spin _ _ h.2.1]
  generalize V.val _ _ _ _ _ = v
  unfold applyRead
  have e2 : (T1 cfg corr x).conj = x.conj := by simp [T1]
  rw [e2]
  cases hl : cfg.lambda <;> simp [T1, hl] <;> split <;> simp

theorem read_T2 (hs : Sym cfg V) (hr : Rounding W lo corr) (h : Ok cfg x) (hw : W x.f.w) :
    read cfg lo V x = read cfg lo V (T2 cfg corr x) := by
  unfold read
  rw [legs_T2 hr hw, bits_T2 h, asym_T2, ch_T2]
  have e1 : (T2 cfg corr x).spin = 1 - x.spin := rfl
  rw [e1, hs.crossOut x.asym x.ch x.spin _ _ h.2.1]
  generalize V.val _ _ _ _ _ = v
  unfold applyRead
  have e2 : (T2 cfg corr x).conj = x.conj := by simp [T2]
  rw [e2]
  cases hl : cfg.lambda <;> simp [T2, hl] <;> split <;> simp

theorem read_T3 (hs : Sym cfg V) (hr : Rounding W lo corr) (h : Ok cfg x) (hw : W x.f.w) :
    read cfg lo V x = read cfg lo V (T3 cfg corr x) := by
  rw [read_T1 (corr := corr) hs hr h hw, read_T2 (corr := corr) hs hr (ok_T1 h) (w_T1 hr hw)]
  rfl

theorem ok_T3 (h : Ok cfg x) : Ok cfg (T3 cfg corr x) := ok_T2 (ok_T1 h)

theorem w_T3 (hr : Rounding W lo corr) (h : W x.f.w) : W (T3 cfg corr x).f.w := w_T2 (w_T1 hr h)

theorem read_TC (hs : Sym cfg V) (hr : Rounding W lo corr) (h : Ok cfg x) (hw : W x.f.w) :
    read cfg lo V x = read cfg lo V (TC cfg corr x) := by
  unfold read
  rw [bits_TC h, asym_TC]
  have e1 : (TC cfg corr x).spin = x.spin := rfl
  have e3 : (TC cfg corr x).ch = x.ch := rfl
  have e2 : (TC cfg corr x).conj = !x.conj := by simp [TC]
  cases hk : cfg.keldysh
  · rw [legs_TC' hr hw hk, e1, e3, hs.conjM hk x.asym x.ch x.spin _ _ h.2.1]
    generalize V.val _ _ _ _ _ = v
    unfold applyRead
    rw [e2]
    have e4 : (TC cfg corr x).prefactor = x.prefactor := by simp [TC, hk]
    rw [e4]
    cases hp : cfg.ph
    · cases hc : x.conj <;> simp [hk]
    · have := hs.real hk hp
      simp [hk, this]
  · rw [legs_TC hr hw hk, e1, e3, hs.conjK hk x.asym x.ch x.spin _ _ h.2.1]
    generalize V.val _ _ _ _ _ = v
    unfold applyRead
    rw [e2]
    have e4 : (TC cfg corr x).prefactor = x.prefactor * conjSign cfg.lambda (bits x.iK) := by
      simp only [TC, hk, if_true]
      rw [oddSign_eq _ _ (lt_inOut _ h.1)]
      congr 1
      unfold conjSign
      rw [twos_inOut _ h.1]
    rw [e4]
    cases hc : x.conj <;> simp [hk] <;> ring

theorem read_Tph (hs : Sym cfg V) (hr : Rounding W lo corr) (hz : cfg.keldysh = true → ∀ w, W w → 2 * lo w = w)
    (h : Ok cfg x) (hw : W x.f.w) : read cfg lo V x = read cfg lo V (Tph cfg x) := by
  by_cases hb : cfg.keldysh = true ∧ cfg.ph = true
  · obtain ⟨hk, hp⟩ := hb
    unfold read
    have e3 : (Tph cfg x).ch = x.ch := by unfold Tph; split <;> rfl
    have e1 : (Tph cfg x).spin = x.spin := by unfold Tph; split <;> rfl
    have e5 : (Tph cfg x).iK = x.iK := by unfold Tph; split <;> rfl
    have e6 : (Tph cfg x).asym = x.asym := by unfold Tph; split <;> rfl
    have e2 : (Tph cfg x).conj = !x.conj := by simp [Tph, hk, hp]
    have e4 : (Tph cfg x).prefactor = x.prefactor * conjSign cfg.lambda (bits x.iK) := by
      simp only [Tph, hk, hp, Bool.and_self, if_true]
      exact oddSign_eq _ _ h.1 _
    rw [legs_Tph hr hw (hz hk) hk hp, e1, e3, e5, e6, hs.ph hk hp x.asym x.ch x.spin _ _ h.2.1]
    generalize V.val _ _ _ _ _ = v
    unfold applyRead
    rw [e2, e4]
    cases hc : x.conj <;> simp [hk] <;> ring
  · have : Tph cfg x = x := by
      unfold Tph; rw [if_neg]; simpa using hb
    rw [this]

theorem read_TR (hs : Sym cfg V) (hr : Rounding W lo corr) (h : Ok cfg x) (hw : W x.f.w) :
    read cfg lo V x = read cfg lo V (TR cfg corr x) := by
  cases hk : cfg.keldysh
  · unfold read
    have e3 : (TR cfg corr x).ch = x.ch := by unfold TR; split <;> rfl
    have e1 : (TR cfg corr x).spin = x.spin := by unfold TR; split <;> rfl
    have e5 : (TR cfg corr x).iK = x.iK := by unfold TR; split <;> rfl
    have e6 : (TR cfg corr x).asym = x.asym := by unfold TR; split <;> rfl
    have e4 : (TR cfg corr x).prefactor = x.prefactor := by unfold TR; split <;> rfl
    have e2 : (TR cfg corr x).conj = !x.conj := by simp [TR, hk]
    rw [legs_TR hr hw hk, e1, e3, e5, e6, hs.tr hk x.asym x.ch x.spin _ _ h.2.1]
    generalize V.val _ _ _ _ _ = v
    unfold applyRead
    rw [e2, e4]
    cases hp : cfg.ph
    · cases hc : x.conj <;> simp [hk]
    · have := hs.real hk hp
      simp [hk, this]
  · have : TR cfg corr x = x := by simp [TR, hk]
    rw [this]

end Verif.Symmetries
