import Verif.Model.KktSystem
import Verif.Model.LqSolve
import Verif.Model.Nl

/-!
# The KKT solver on concrete problems

The arbitrary parts of `Model/Kkt` filled in with the linear system of `Model/KktSystem`: `/repo/src/core/solvers/kkt.cpp`
L89-117, L138-173, L195-252. No evaluation throws.
-/

namespace Verif.Kkt
open Verif Verif.Lq Matrix

section
variable {K : Type} [Field K] {n : ℕ} {nu : ℕ → ℕ}

/-- What `problem_->calc` and `problem_->calcDiff` leave in the datas of the `ActionModelLQR`s of `P`, kkt.cpp L196-197. -/
def Local.ofLq (P : LqProb K n nu) (xs : ℕ → Fin n → K) (us : ∀ t, Fin (nu t) → K) : Local K n nu where
  T := P.T
  d := fun t => (P.node t).derivs (xs t) (us t)
  xnext := fun t => (P.node t).next (xs t) (us t)
  LxT := P.term.q + P.term.Q *ᵥ xs P.T
  LxxT := P.term.Q
  xs := xs
  x0 := P.x0

/-- The same for a problem with arbitrary dynamics and costs, `L` being what its models write as derivatives. -/
def Local.ofNl {m : ℕ} (P : Nl.NlProb n m) (L : Lin ℝ n m) (xs : ℕ → Fin n → ℝ) (us : ℕ → Fin m → ℝ) :
    Local ℝ n (fun _ => m) where
  T := P.T
  d := L.d
  xnext := fun t => P.next t (xs t) (us t)
  LxT := L.LxT
  LxxT := L.LxxT
  xs := xs
  x0 := P.x0

/-- The solver's calls on a problem of `ActionModelLQR`s. The flat memory is the one left by assembling the systems
`hist xs us` before; `dF` is what the vector of that name holds before. `expectedImprovement` reads the `primaldual_` of
the last linear solve, which is the one of the system it reads. -/
def lqOracle {m : ℕ} (P : LqProb K n (fun _ => m)) (lu : ℕ → (ℕ → ℕ → K) → (ℕ → K) → ℕ → K)
    (hist : (ℕ → Fin n → K) → (ℕ → Fin m → K) → List (Local K n (fun _ => m))) (dF : ℕ → K) :
    Oracle K (Fin n → K) (Fin n → K) (Fin m → K) (Local K n (fun _ => m) × Mem K) (ℕ → Fin n → K) where
  calcThrows := fun _ _ => false
  calcDiffThrows := fun _ _ => false
  assemble := fun xs us => (Local.ofLq P xs us, assembleOn (Local.ofLq P xs us) (memAfter P.T (hist xs us)))
  interrupted := fun l _ _ => l
  primalDual := fun l =>
    let pd := primalDual lu n (fun _ => m) P.T l.2
    some (dxOf n pd, duOf n (fun _ => m) P.T pd, lamOf n (fun _ => m) P.T pd)
  expImp := fun l _ _ => expImp n (fun _ => m) P.T l.2 (primalDual lu n (fun _ => m) P.T l.2)
  stop := fun l lam => stopOf l.1 l.2 lam dF

end
end Verif.Kkt
