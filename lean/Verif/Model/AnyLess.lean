import Verif.Model.Sparse
import Verif.Model.Mac

/-!
# The tests of `CheckMaxAbs`

Models the specialisations of `isAnyLess`, export/SparseField.h:768-803, over exact numbers (no NaN).
-/

namespace F3D

/-- `std::abs`. -/
def ratAbs (v : Rat) : Rat := if v < 0 then -v else v

/-- `isAnyLess` for scalars, export/SparseField.h:768-773: `left` is a voxel, `right` the threshold. -/
def isAnyLess (left right : Rat) : Bool := decide (ratAbs left < right)

/-- `isAnyLess` for vectors, export/SparseField.h:777-803. -/
def isAnyLessVec (left right : V3q) : Bool :=
  decide (ratAbs left.x < right.x) || decide (ratAbs left.y < right.y) || decide (ratAbs left.z < right.z)

/-- `releaseBlocks(CheckMaxAbs<Data_T>(t))` for scalars, export/SparseField.h:810-873, 1541-1593. -/
def Sparse.releaseAbove (t : Rat) (f : Sparse Rat) : Option (Sparse Rat × Nat) := f.releaseMaxAbs fun v => isAnyLess v t

/-- `releaseBlocks(CheckMaxAbs<Data_T>(t))` for vectors. -/
def Sparse.releaseAboveVec (t : V3q) (f : Sparse V3q) : Option (Sparse V3q × Nat) := f.releaseMaxAbs fun v => isAnyLessVec v t

end F3D
