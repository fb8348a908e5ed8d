import Mathlib.Analysis.SpecialFunctions.Trigonometric.Basic
import Mathlib.Data.EReal.Basic
import Mathlib.Data.Matrix.Mul
import Mathlib.LinearAlgebra.Matrix.Notation

/-!
# Friction cone, wrench cone and centre-of-pressure support

Files modelled (under `/repo/include/crocoddyl/multibody/`): `friction-cone.hxx`, `wrench-cone.hxx`,
`cop-support.hxx`.

Exact real arithmetic. Bounds and the maximal normal force are extended reals (`infinity()` is `⊤`). NaN is not
modelled, so neither are the cones whose construction computes one: `nf = 0` (division of `2π` by zero) and
infinite boxes (`∞ * 0`). Rows of `A_`, `lb_`, `ub_` are functions of the row number; rows past the end are never
read. Warnings printed on `std::cerr` are not modelled.
-/

namespace Verif.Cones

noncomputable section

open Matrix

/-- A 3-vector. -/
abbrev V3 := Fin 3 → ℝ

/-- A 3×3 matrix. -/
abbrev M3 := Matrix (Fin 3) (Fin 3) ℝ

/-- `FrictionConeTpl`: the members (friction-cone.hpp L175-186). -/
structure FCone where
  nf : ℕ
  A : ℕ → V3
  ub : ℕ → EReal
  lb : ℕ → EReal
  R : M3
  mu : ℝ
  inner : Bool
  minN : ℝ
  maxN : EReal

/-- The friction coefficient of the pyramid (friction-cone.hxx L94-99, wrench-cone.hxx L139-144). -/
def muEff (nf : ℕ) (mu : ℝ) (inner : Bool) : ℝ :=
  let theta := 2 * Real.pi / nf
  if inner then mu * Real.cos (theta * (1 / 2)) else mu

/-- `tsurf_i` (friction-cone.hxx L117-118, wrench-cone.hxx L166-167). -/
def tsurf (nf : ℕ) (i : ℕ) : V3 :=
  let theta := 2 * Real.pi / nf
  ![Real.cos (theta * i), Real.sin (theta * i), 0]

/-- Body of the loop over the facets (friction-cone.hxx L116-121, wrench-cone.hxx L165-172): the pair is `row` and the
(left part of the) matrix. -/
def facet (nf : ℕ) (R : M3) (muN : V3) (s : ℕ × (ℕ → V3)) (i : ℕ) : ℕ × (ℕ → V3) :=
  let A := Function.update s.2 s.1 ((muN + tsurf nf i) ᵥ* Rᵀ)
  let row := s.1 + 1
  let A := Function.update A row ((muN - tsurf nf i) ᵥ* Rᵀ)
  (row + 1, A)

/-- `update()`, friction-cone.hxx L86-125. -/
def FCone.update (c : FCone) : FCone :=
  let A : ℕ → V3 := fun _ => 0
  let ub : ℕ → EReal := fun _ => 0
  let lb : ℕ → EReal := fun _ => ⊥
  let mu := muEff c.nf c.mu c.inner
  let muN : V3 := -mu • ![0, 0, 1]
  let A := ((List.range (c.nf / 2)).foldl (facet c.nf c.R muN) (0, A)).2
  { c with
    A := Function.update A c.nf (fun j => c.Rᵀ 2 j)
    lb := Function.update lb c.nf (c.minN : EReal)
    ub := Function.update ub c.nf c.maxN }

/-- The constructor, friction-cone.hxx L13-49. -/
def FCone.create (R : M3) (mu : ℝ) (nf : ℕ) (inner : Bool) (minN : ℝ) (maxN : EReal) : FCone :=
  FCone.update
    { nf := if nf % 2 ≠ 0 then 4 else nf
      A := fun _ => 0, ub := fun _ => 0, lb := fun _ => 0
      R := R
      mu := if mu < 0 then 1 else mu
      inner := inner
      minN := if minN < 0 then 0 else minN
      maxN := if maxN < 0 then ⊤ else maxN }

/-- `set_mu`, friction-cone.hxx L233-241: the value is stored after the check as well. -/
def FCone.setMu (c : FCone) (mu : ℝ) : FCone :=
  let c := if mu < 0 then { c with mu := 1 } else c
  { c with mu := mu }

/-- `set_min_nforce`, friction-cone.hxx L248-256. -/
def FCone.setMin (c : FCone) (v : ℝ) : FCone :=
  let c := if v < 0 then { c with minN := 0 } else c
  { c with minN := v }

/-- `set_max_nforce`, friction-cone.hxx L258-267. -/
def FCone.setMax (c : FCone) (v : EReal) : FCone :=
  let c := if v < 0 then { c with maxN := ⊤ } else c
  { c with maxN := v }

/-- The calls that change a friction cone: the setters (L209-267), `update()`, and `update(normal, …)` (L127-148) and
`set_nsurf` (L214-227), whose rotation `FromTwoVectors(normal, UnitZ)` is passed as `R`. -/
inductive FOp
  | setR (R : M3)
  | setMu (mu : ℝ)
  | setInner (b : Bool)
  | setMin (v : ℝ)
  | setMax (v : EReal)
  | update
  | updateWith (R : M3) (mu : ℝ) (b : Bool) (minN : ℝ) (maxN : EReal)

/-- One call. -/
def FCone.step (c : FCone) : FOp → FCone
  | .setR R => { c with R := R }
  | .setMu mu => c.setMu mu
  | .setInner b => { c with inner := b }
  | .setMin v => c.setMin v
  | .setMax v => c.setMax v
  | .update => c.update
  | .updateWith R mu b mn mx =>
    let c := { c with R := R }
    let c := c.setMu mu
    let c := { c with inner := b }
    let c := c.setMin mn
    let c := c.setMax mx
    c.update

/-- `get_nsurf`, friction-cone.hxx L184-187. -/
def FCone.nsurf (c : FCone) : V3 := fun j => c.R 2 j

/-- `cast()`, friction-cone.hxx L150-158 (to a scalar type that represents the parameters). -/
def FCone.cast (c : FCone) : FCone := FCone.create c.R c.mu c.nf c.inner c.minN c.maxN

/-- `WrenchConeTpl`: the members (wrench-cone.hpp L195-210). `A` has a left and a right block. -/
structure WCone where
  nf : ℕ
  Al : ℕ → V3
  Ar : ℕ → V3
  ub : ℕ → EReal
  lb : ℕ → EReal
  R : M3
  box : Fin 2 → EReal
  mu : ℝ
  inner : Bool
  minN : ℝ
  maxN : EReal

/-- `update()`, wrench-cone.hxx L130-220. -/
def WCone.update (c : WCone) : WCone :=
  let ub : ℕ → EReal := fun _ => 0
  let lb : ℕ → EReal := fun _ => ⊥
  let mu := muEff c.nf c.mu c.inner
  let muN : V3 := -mu • ![0, 0, 1]
  let nf := c.nf
  let Rt := c.Rᵀ
  let Al := ((List.range (nf / 2)).foldl (facet nf c.R muN) (0, fun _ => 0)).2
  let Ar : ℕ → V3 := fun _ => 0
  let Al := Function.update Al nf (Rt 2)
  let lb := Function.update lb nf (c.minN : EReal)
  let ub := Function.update ub nf c.maxN
  let L := (c.box 0).toReal * (1 / 2)
  let W := (c.box 1).toReal * (1 / 2)
  let Al := Function.update Al (nf + 1) (-W • Rt 2)
  let Ar := Function.update Ar (nf + 1) (Rt 0)
  let Al := Function.update Al (nf + 2) (Al (nf + 1))
  let Ar := Function.update Ar (nf + 2) (-Rt 0)
  let Al := Function.update Al (nf + 3) (-L • Rt 2)
  let Ar := Function.update Ar (nf + 3) (Rt 1)
  let Al := Function.update Al (nf + 4) (Al (nf + 3))
  let Ar := Function.update Ar (nf + 4) (-Rt 1)
  let muLW := -mu * (L + W)
  let Al := Function.update Al (nf + 5) (![W, L, muLW] ᵥ* Rt)
  let Ar := Function.update Ar (nf + 5) (![-mu, -mu, -1] ᵥ* Rt)
  let Al := Function.update Al (nf + 6) (![W, -L, muLW] ᵥ* Rt)
  let Ar := Function.update Ar (nf + 6) (![-mu, mu, -1] ᵥ* Rt)
  let Al := Function.update Al (nf + 7) (![-W, L, muLW] ᵥ* Rt)
  let Ar := Function.update Ar (nf + 7) (![mu, -mu, -1] ᵥ* Rt)
  let Al := Function.update Al (nf + 8) (![-W, -L, muLW] ᵥ* Rt)
  let Ar := Function.update Ar (nf + 8) (![mu, mu, -1] ᵥ* Rt)
  let Al := Function.update Al (nf + 9) (Al (nf + 5))
  let Ar := Function.update Ar (nf + 9) (-Ar (nf + 5))
  let Al := Function.update Al (nf + 10) (Al (nf + 6))
  let Ar := Function.update Ar (nf + 10) (-Ar (nf + 6))
  let Al := Function.update Al (nf + 11) (Al (nf + 7))
  let Ar := Function.update Ar (nf + 11) (-Ar (nf + 7))
  let Al := Function.update Al (nf + 12) (Al (nf + 8))
  let Ar := Function.update Ar (nf + 12) (-Ar (nf + 8))
  { c with Al := Al, Ar := Ar, lb := lb, ub := ub }

/-- The constructors, wrench-cone.hxx L13-50 and (with `inner = true`) L53-89: the box is not checked. -/
def WCone.create (R : M3) (mu : ℝ) (box : Fin 2 → EReal) (nf : ℕ) (inner : Bool) (minN : ℝ) (maxN : EReal) : WCone :=
  WCone.update
    { nf := if nf % 2 ≠ 0 then 4 else nf
      Al := fun _ => 0, Ar := fun _ => 0, ub := fun _ => 0, lb := fun _ => 0
      R := R
      box := box
      mu := if mu < 0 then 1 else mu
      inner := inner
      minN := if minN < 0 then 0 else minN
      maxN := if maxN < 0 then ⊤ else maxN }

/-- `set_box`, wrench-cone.hxx L303-317. -/
def WCone.setBox (c : WCone) (box : Fin 2 → EReal) : WCone :=
  let c := { c with box := box }
  let c := if c.box 0 < 0 then { c with box := Function.update c.box 0 ⊤ } else c
  if c.box 1 < 0 then { c with box := Function.update c.box 1 ⊤ } else c

/-- `set_mu`, wrench-cone.hxx L319-327. -/
def WCone.setMu (c : WCone) (mu : ℝ) : WCone :=
  let c := { c with mu := mu }
  if mu < 0 then { c with mu := 1 } else c

/-- `set_min_nforce`, wrench-cone.hxx L334-342. -/
def WCone.setMin (c : WCone) (v : ℝ) : WCone :=
  let c := { c with minN := v }
  if v < 0 then { c with minN := 0 } else c

/-- `set_max_nforce`, wrench-cone.hxx L344-353. -/
def WCone.setMax (c : WCone) (v : EReal) : WCone :=
  let c := { c with maxN := v }
  if v < 0 then { c with maxN := ⊤ } else c

/-- The calls that change a wrench cone (wrench-cone.hxx L222-236, L298-353). -/
inductive WOp
  | setR (R : M3)
  | setBox (box : Fin 2 → EReal)
  | setMu (mu : ℝ)
  | setInner (b : Bool)
  | setMin (v : ℝ)
  | setMax (v : EReal)
  | update
  | updateWith (R : M3) (mu : ℝ) (box : Fin 2 → EReal) (minN : ℝ) (maxN : EReal)

/-- One call. -/
def WCone.step (c : WCone) : WOp → WCone
  | .setR R => { c with R := R }
  | .setBox b => c.setBox b
  | .setMu mu => c.setMu mu
  | .setInner b => { c with inner := b }
  | .setMin v => c.setMin v
  | .setMax v => c.setMax v
  | .update => c.update
  | .updateWith R mu box mn mx =>
    let c := { c with R := R }
    let c := c.setMu mu
    let c := c.setBox box
    let c := c.setMin mn
    let c := c.setMax mx
    c.update

/-- `CoPSupportTpl::update()`, cop-support.hxx L55-75: the four rows (left, right) for the given rotation and box. All
upper bounds are `0` and all lower bounds `-∞`. -/
def copRows (R : M3) (box : Fin 2 → ℝ) : Fin 4 → V3 × V3 :=
  let L := box 0 / 2
  let W := box 1 / 2
  ![(-W • fun j => R j 2, fun j => R j 0), (-W • fun j => R j 2, -fun j => R j 0),
    (-L • fun j => R j 2, fun j => R j 1), (-L • fun j => R j 2, -fun j => R j 1)]

end

end Verif.Cones
