import Verif.Model.Ipopt

/-!
# The layout of `SolverIpopt` over its life

`src/core/solvers/ipopt.cpp` L13-53. The interface computes the places of the variables when it is built and in `resizeData`.
`SolverIpopt::solve` (L27-48) does not ask whether the problem was updated and does not call `resizeData`, which is public.
-/

namespace Verif.Ipopt

/-- What a client does: replace nodes of the problem, which then has the dimensions `P` (in the code
with the same number of nodes; the model allows another); call `solve`; call `resizeData`. -/
inductive Act where
  | update (P : Prob)
  | solve
  | resizeData

/-- The dimensions of the problem and the layout of the interface at every `solve`, from a given problem and layout
(`ipopt.cpp` L27-53). -/
def life : List Act → Prob → Layout → List (Prob × Layout)
  | [], _, _ => []
  | .update P :: as, _, L => life as P L
  | .solve :: as, P, L => (P, L) :: life as P L
  | .resizeData :: as, P, L => life as P (resize P L)

end Verif.Ipopt
