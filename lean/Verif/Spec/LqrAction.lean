import Verif.Model.LqrAction
import Verif.Spec.Deriv

/-!
# Specification of the linear-quadratic action models

The documented functions (`lqr.hpp` L20-60): linear dynamics with drift, quadratic cost, affine constraints.
-/

namespace Verif.Lqr.Spec
open Matrix

variable {o ι κ γ η K : Type} [Fintype ι] [Fintype κ] [Field K]

/-- `A x + B u + f`. -/
def next (p : Par o ι κ γ η K) (x : ι → K) (u : κ → K) (a : o) : K :=
  ∑ j, p.A a j * x j + ∑ j, p.B a j * u j + p.f a

/-- `½ [x; u]ᵀ [Q N; Nᵀ R] [x; u] + qᵀ x + rᵀ u`. -/
def cost (p : Par o ι κ γ η K) (x : ι → K) (u : κ → K) : K :=
  1 / 2 * (∑ i, ∑ j, x i * p.Q i j * x j + 2 * ∑ i, ∑ j, x i * p.N i j * u j + ∑ i, ∑ j, u i * p.R i j * u j)
    + ∑ i, p.q i * x i + ∑ i, p.r i * u i

/-- `Gx x + Gu u + g`. -/
def ineq (p : Par o ι κ γ η K) (x : ι → K) (u : κ → K) (a : γ) : K :=
  ∑ j, p.Gx a j * x j + ∑ j, p.Gu a j * u j + p.g a

/-- `Hx x + Hu u + h`. -/
def eqc (p : Par o ι κ γ η K) (x : ι → K) (u : κ → K) (a : η) : K :=
  ∑ j, p.Hx a j * x j + ∑ j, p.Hu a j * u j + p.h a

/-- The parameters in force after a history. -/
def current (p : Par o ι κ γ η K) (ops : List (Op o ι κ γ η K)) : Par o ι κ γ η K :=
  ops.foldl (fun p op => match op with | .set p' => p' | _ => p) p

/-- Number of data objects created. -/
def created (ops : List (Op o ι κ γ η K)) : ℕ :=
  ops.countP fun op => match op with | .create => true | _ => false

/-- The constant derivatives stored in `d` are those of `p`. -/
def Holds (p : Par o ι κ γ η K) (d : Data o ι κ γ η K) : Prop :=
  d.Fx = p.A ∧ d.Fu = p.B ∧ d.Lxx = p.Q ∧ d.Luu = p.R ∧ d.Lxu = p.N ∧
  d.Gx = p.Gx ∧ d.gxCols = Fintype.card ι ∧ d.Gu = p.Gu ∧ d.Hx = p.Hx ∧ d.hxCols = Fintype.card ι ∧ d.Hu = p.Hu

/-- The constant derivatives used at a terminal node are those of `p`. -/
def HoldsT (p : Par o ι κ γ η K) (d : Data o ι κ γ η K) : Prop :=
  d.Lxx = p.Q ∧ d.Gx = p.Gx ∧ d.gxCols = Fintype.card ι ∧ d.Hx = p.Hx ∧ d.hxCols = Fintype.card ι

end Verif.Lqr.Spec
