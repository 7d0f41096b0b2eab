import Verif.GridMap.Props

/-! Concrete cases that meet the hypotheses of C20, C21 and C74. -/
namespace Verif.GridMap

example : ChangeOfVariable (v1 3 1) (v1Inv 3 1) := c21_v1 (by norm_num) 1

example : ChangeOfVariable (v2 3 1) (v2Inv 3 1) := c21_v2 (by norm_num) 1

example : ChangeOfVariable (v4 3 1) (v4Inv 3 1) := c21_v4 (by norm_num) 1

example : linInv 3 (lin 3 5) = 5 := (c21_lin (by norm_num : (0:ℝ) < 3)).1 5

example : v3Inv 3 1 (v3 3 1 2) = 2 := (c21_v3_partial (by norm_num : (0:ℝ) < 3) 1).2.1 2 (by norm_num)

example : expLam (expT 2) = 2 := c20_exp.1 2 (by norm_num)

example : logLam 3 (logT 3 (-2)) = -2 := (c20_log (by norm_num : (0:ℝ) < 3)).1 (-2) (by norm_num)

example : logResubst 3 (logSubst 3 (-2)) = -2 := (c20_substitutions (by norm_num : (0:ℝ) < 3)).1 (-2) (by norm_num)

end Verif.GridMap
