import Mathlib.Data.Prod.Lex

/-!
# Model of the version check

File modelled: `/repo/include/crocoddyl/core/utils/version.hpp`. The three numbers of the library
(`CROCODDYL_MAJOR_VERSION` and so on, from the generated `config.hh`) are parameters.
-/

namespace Verif.Version

/-- `checkVersionAtLeast(major, minor, patch)` (version.hpp L44-51) in a library of version
`M.N.Q`. -/
def atLeast (M N Q : Int) (major minor patch : Int) : Bool :=
  decide (M > major) ||
    (decide (M ≥ major) && (decide (N > minor) || (decide (N ≥ minor) && decide (Q ≥ patch))))

end Verif.Version
