import Mathlib.Analysis.Calculus.Deriv.Basic
import Verif.Model.CodeGen

/-!
# What a code-generated action model should compute
-/

namespace Verif.Cg

variable {K B : Type}

/-- A matrix of the given shape. -/
def Mx.Shape (M : Mx K) (r c : ℕ) : Prop := M.rows = r ∧ M.cols = c ∧ M.Ok

/-- The model's results have the announced dimensions. At terminal nodes, the vectors and matrices of the constraints have either the
number of rows of terminal constraints (models that resize their data) or the number of rows with which the data was created. -/
structure Action.Wf (A : Action K B) (np : ℕ) : Prop where
  value : ∀ b p x u, p.length = np → x.length = A.nx → u.length = A.nu →
    (A.run b p x u).xnext.length = A.nx ∧ (A.run b p x u).g.length = A.ng ∧ (A.run b p x u).h.length = A.nh
  diff : ∀ b p x u, p.length = np → x.length = A.nx → u.length = A.nu →
    let d := A.diff b p x u
    d.Fx.Shape A.ndx A.ndx ∧ d.Fu.Shape A.ndx A.nu ∧ d.Lx.Shape A.ndx 1 ∧ d.Lu.Shape A.nu 1 ∧ d.Lxx.Shape A.ndx A.ndx
      ∧ d.Lxu.Shape A.ndx A.nu ∧ d.Luu.Shape A.nu A.nu ∧ d.Gx.Shape A.ng A.ndx ∧ d.Gu.Shape A.ng A.nu ∧ d.Hx.Shape A.nh A.ndx
      ∧ d.Hu.Shape A.nh A.nu
  terminal : ∃ gT hT, (gT = A.ngT ∨ gT = max A.ng A.ngT) ∧ (hT = A.nhT ∨ hT = max A.nh A.nhT)
    ∧ (∀ b p x, p.length = np → x.length = A.nx → (A.runT b p x).g.length = gT ∧ (A.runT b p x).h.length = hT)
    ∧ ∀ b p x, p.length = np → x.length = A.nx →
      let d := A.diffT b p x
      d.Lx.Shape A.ndx 1 ∧ d.Lxx.Shape A.ndx A.ndx ∧ d.Gx.Shape gT A.ndx ∧ d.Hx.Shape hT A.ndx
  quasi : ∀ b p v x, p.length = np → v.length = A.nu → x.length = A.nx → (A.quasi b p v x).length = A.nu

/-- No constraints, in running or terminal nodes. -/
def Action.Free (A : Action K B) : Prop := A.ng = 0 ∧ A.nh = 0 ∧ A.ngT = 0 ∧ A.nhT = 0

/-- The recording point has the dimensions of the model. -/
def Point.Sized (P : Point K) (A : Action K B) (np : ℕ) : Prop :=
  P.X.length = A.nx + A.nu + np ∧ P.XT.length = A.nx + np ∧ P.X3.length = A.nx ∧ P.Y3.length = A.nu

/-- What the wrapped model itself computes with given parameters: running value. -/
def Action.value (A : Action K B) (p x u : List K) : Val K := A.run (A.branch .calc (x ++ u ++ p)) p x u

/-- Running derivatives. -/
def Action.derivs (A : Action K B) (p x u : List K) : Der K := A.diff (A.branch .diff (x ++ u ++ p)) p x u

/-- Terminal value. -/
def Action.valueT (A : Action K B) (p x : List K) : ValT K := A.runT (A.branch .calcT (x ++ p)) p x

/-- Terminal derivatives. -/
def Action.derivsT (A : Action K B) (p x : List K) : DerT K := A.diffT (A.branch .diffT (x ++ p)) p x

/-- The parameters set last, with the dimension `np`; those a data starts with are zero. -/
def lastParams [Zero K] (np : ℕ) (ops : List (Op K)) : List K :=
  (ops.reverse.findSome? fun
    | .params p => if p.length = np then some p else none
    | _ => none).getD (List.replicate np 0)

/-- Calls with arguments of the right dimensions (`update_p` checks its own), that leave the constraints of the wrapped model alone. -/
def Op.Legal (A : Action K B) : Op K → Prop
  | .params _ => True
  | .calc x u => x.length = A.nx ∧ u.length = A.nu
  | .calcT x => x.length = A.nx
  | .diff x u => x.length = A.nx ∧ u.length = A.nu
  | .diffT x => x.length = A.nx
  | .quasi x => x.length = A.nx
  | .constraints .. => False

/-- What is assumed of automatic differentiation of one recorded function: the Jacobian holds its partial derivatives row by row, the
Hessian those of the weighted sum of its outputs, of which only the one that selects the first output is used. -/
structure Diff.Exact (D : Diff ℝ) (f : List ℝ → Option (List ℝ)) : Prop where
  size_jac : ∀ X Y, f X = some Y → (D.jac f X).length = Y.length * X.length
  size_hess : ∀ X w, (D.hess f X w).length = X.length * X.length
  jac : ∀ X Y i j d, f X = some Y → i < Y.length → j < X.length →
    HasDerivAt (fun t => ((f (X.set j t)).getD []).getD i 0) d (X.getD j 0) → (D.jac f X)[i * X.length + j]? = some d
  hess : ∀ X w (n : ℕ) i j d, w = (List.replicate (n + 1) (0 : ℝ)).set 0 1 → i < X.length → j < X.length →
    HasDerivAt (fun t => deriv (fun s => ((f ((X.set i t).set j s)).getD []).getD 0 0) ((X.set i t).getD j 0)) d (X.getD i 0) →
    (D.hess f X w)[i * X.length + j]? = some d

end Verif.Cg
