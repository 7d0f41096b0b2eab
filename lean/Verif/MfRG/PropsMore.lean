import Verif.MfRG.Props

namespace Verif.MfRG
variable {V S : Type} [AddCommGroup V] [AddCommGroup S]

/-- C67, the measures of convergence.  After each pass of the self-energy iteration, the recorded deviations are those of
the difference of the new and the previous self-energy derivative, absolute and relative to the new one. -/
theorem c67_deviation (E : Eqs V S) (c : Cfg) (h3 : 3 ≤ c.nloops) (hc : c.seCorr = true) (k : ℕ) :
    (passes E c (k + 1)).abs = E.absS ((passes E c (k + 1)).sigma - (passes E c k).sigma) ∧
      (passes E c (k + 1)).rel =
        E.relS ((passes E c (k + 1)).sigma - (passes E c k).sigma) (passes E c (k + 1)).sigma := by
  have h3' : c.nloops ≥ 3 := h3
  simp only [passes, Iter.pass, h3', if_true, hc, and_self]

end Verif.MfRG
