import Verif.Index.Props

namespace Verif.Index

/-- **C03** (domain). The rotated position is undefined for an axis that does not exist, in particular for the axis
number equal to the rank, which the assertion in the code lets pass. -/
theorem c03_rotate_no_axis (k iDim : Nat) (dims : List Nat) (h : dims.length ≤ iDim) :
    rotateFlatIndex k dims iDim = none := by
  simp [rotateFlatIndex, h]

end Verif.Index
