import Verif.Model.Kkt
import Verif.Model.Lq

/-!
# Model of the linear system of the KKT solver

File modelled: `/repo/src/core/solvers/kkt.cpp` L89-117 (`computeDirection`), L138-173 (`stoppingCriteria`,
`expectedImprovement`), L195-252 (`calcDiff`, `computePrimalDual`), L270-322 (`allocateData`).

The matrix and the vectors are flat memory, addressed by natural numbers; blocks are written in the order of the code, at
the offsets of the code. All states have dimension `n` (`StateVector`), node `t` has `nu t` controls. The running
counters `ix`, `iu` of the loops are the functions `ixAt`, `iuAt` of the node. Without running nodes the code reads
`get_runningModels()[0]` out of range (L201): the theorems ask for `0 < T` where it matters.

Eigen's `lu().solve` is an arbitrary function `lu`; scalars are exact.
-/

namespace Verif.Kkt
open Verif Verif.Lq Matrix

/-- `kkt_` and `kktref_`. -/
structure Mem (K : Type) where
  kkt : ℕ → ℕ → K
  ref : ℕ → K

/-- What `calcDiff` reads: the derivatives and next states in the node datas, the terminal derivatives, the candidate's
states and the initial state. -/
structure Local (K : Type) (n : ℕ) (nu : ℕ → ℕ) where
  T : ℕ
  d : ∀ t, Derivs K n (nu t)
  xnext : ℕ → Fin n → K
  LxT : Fin n → K
  LxxT : Matrix (Fin n) (Fin n) K
  xs : ℕ → Fin n → K
  x0 : Fin n → K

section
variable {K : Type} [Field K] {n : ℕ} {nu : ℕ → ℕ}

/-- A matrix as a function of natural numbers. -/
def flat2 {a b : ℕ} (M : Matrix (Fin a) (Fin b) K) : ℕ → ℕ → K :=
  fun i j => if h : i < a ∧ j < b then M ⟨i, h.1⟩ ⟨j, h.2⟩ else 0

/-- A vector as a function of natural numbers. -/
def flat1 {a : ℕ} (v : Fin a → K) : ℕ → K := fun i => if h : i < a then v ⟨i, h⟩ else 0

/-- `A.block(r, c, a, b) = M`. -/
def setBlock (r c a b : ℕ) (M A : ℕ → ℕ → K) : ℕ → ℕ → K :=
  fun i j => if (r ≤ i ∧ i < r + a) ∧ c ≤ j ∧ j < c + b then M (i - r) (j - c) else A i j

/-- `w.segment(r, a) = v`. -/
def setSeg (r a : ℕ) (v w : ℕ → K) : ℕ → K := fun i => if r ≤ i ∧ i < r + a then v (i - r) else w i

/-- The counter `ix` at node `t`, kkt.cpp L203, L235. -/
def ixAt (n : ℕ) : ℕ → ℕ
  | 0 => 0
  | t + 1 => ixAt n t + n

/-- The counter `iu` at node `t`, kkt.cpp L204, L236. -/
def iuAt (nu : ℕ → ℕ) : ℕ → ℕ
  | 0 => 0
  | t + 1 => iuAt nu t + nu t

/-- `ndx_`, kkt.cpp L279, L298, L302. -/
def ndx (n T : ℕ) : ℕ := ixAt n T + n

/-- `nu_`, kkt.cpp L280, L299. -/
def nus (nu : ℕ → ℕ) (T : ℕ) : ℕ := iuAt nu T

/-- The body of the loop of `calcDiff`, kkt.cpp L207-237. -/
def asmNode (l : Local K n nu) (m : Mem K) (t : ℕ) : Mem K :=
  let N := ndx n l.T
  let M := nus nu l.T
  let ix := ixAt n t
  let iu := iuAt nu t
  let cx0 := n
  let d := l.d t
  let ref := if t = 0 then setSeg (N + M) n (flat1 (l.xs 0 - l.x0)) m.ref else m.ref
  let kkt := setBlock ix ix n n (flat2 d.Lxx) m.kkt
  let kkt := setBlock ix (N + iu) n (nu t) (flat2 d.Lxu) kkt
  let kkt := setBlock (N + iu) ix (nu t) n (flat2 d.Lxuᵀ) kkt
  let kkt := setBlock (N + iu) (N + iu) (nu t) (nu t) (flat2 d.Luu) kkt
  let kkt := setBlock (N + M + cx0 + ix) ix n n (flat2 (-d.Fx)) kkt
  let kkt := setBlock (N + M + cx0 + ix) (N + iu) n (nu t) (flat2 (-d.Fu)) kkt
  let ref := setSeg ix n (flat1 d.Lx) ref
  let ref := setSeg (N + iu) (nu t) (flat1 d.Lu) ref
  let ref := setSeg (N + M + cx0 + ix) n (flat1 (l.xs (t + 1) - l.xnext t)) ref
  ⟨kkt, ref⟩

/-- `calcDiff` after the evaluation of the problem, kkt.cpp L199-244, on the memory left by earlier calls. -/
def assembleOn (l : Local K n nu) (m : Mem K) : Mem K :=
  let N := ndx n l.T
  let M := nus nu l.T
  let m : Mem K := { m with kkt := setBlock (N + M) 0 N N (fun i j => if i = j then 1 else 0) m.kkt }
  let m := (List.range l.T).foldl (asmNode l) m
  let ix := ixAt n l.T
  let kkt := setBlock ix ix n n (flat2 l.LxxT) m.kkt
  let ref := setSeg ix n (flat1 l.LxT) m.ref
  { kkt := setBlock 0 (N + M) (N + M) N (fun i j => kkt (N + M + j) i) kkt, ref := ref }

/-- The memory after `allocateData`, kkt.cpp L308-311. -/
def Mem.zero : Mem K := ⟨fun _ _ => 0, fun _ => 0⟩

/-- `computePrimalDual`, kkt.cpp L248-252: `primaldual_`. -/
def primalDual (lu : ℕ → (ℕ → ℕ → K) → (ℕ → K) → ℕ → K) (n : ℕ) (nu : ℕ → ℕ) (T : ℕ) (m : Mem K) : ℕ → K :=
  lu (2 * ndx n T + nus nu T) m.kkt (fun i => -m.ref i)

/-- `dxs_[t]`, kkt.cpp L95, L107, L115. -/
def dxOf (n : ℕ) (pd : ℕ → K) (t : ℕ) : Fin n → K := fun i => pd (ixAt n t + i)

/-- `dus_[t]`, kkt.cpp L97, L108. -/
def duOf (n : ℕ) (nu : ℕ → ℕ) (T : ℕ) (pd : ℕ → K) (t : ℕ) : Fin (nu t) → K :=
  fun i => pd (ndx n T + (iuAt nu t + i))

/-- `lambdas_[t]`, kkt.cpp L109, L116, L251. -/
def lamOf (n : ℕ) (nu : ℕ → ℕ) (T : ℕ) (pd : ℕ → K) (t : ℕ) : Fin n → K :=
  fun i => pd (ndx n T + nus nu T + (ixAt n t + i))

/-- `expectedImprovement`, kkt.cpp L165-173. -/
def expImp (n : ℕ) (nu : ℕ → ℕ) (T : ℕ) (m : Mem K) (pd : ℕ → K) : K × K :=
  let P := ndx n T + nus nu T
  (-∑ i ∈ Finset.range P, m.ref i * pd i,
   -∑ i ∈ Finset.range P, (∑ j ∈ Finset.range P, m.kkt i j * pd j) * pd i)

/-- The body of the loop of `stoppingCriteria`, kkt.cpp L146-156. -/
def dFNode (l : Local K n nu) (lam : ℕ → Fin n → K) (w : ℕ → K) (t : ℕ) : ℕ → K :=
  let w := setSeg (ixAt n t) n (flat1 (lam t - (l.d t).Fxᵀ *ᵥ lam (t + 1))) w
  setSeg (ndx n l.T + iuAt nu t) (nu t) (flat1 (-((l.d t).Fuᵀ *ᵥ lam (t + 1)))) w

/-- `stoppingCriteria`, kkt.cpp L138-163, on the vector `dF` left by earlier calls. -/
def stopOf (l : Local K n nu) (m : Mem K) (lam : ℕ → Fin n → K) (dF : ℕ → K) : K :=
  let w := (List.range l.T).foldl (dFNode l lam) dF
  let w := setSeg (ixAt n l.T) n (flat1 (lam l.T)) w
  let P := ndx n l.T + nus nu l.T
  (∑ i ∈ Finset.range P, (m.ref i + w i) ^ 2) + ∑ i ∈ Finset.range (ndx n l.T), m.ref (P + i) ^ 2

/-- The memory after assembling the system for the local data `ls` in turn: horizon and dimensions are those of
`allocateData`, which only the constructor calls. The evaluation of the problem comes first in `calcDiff` (L196-197), so
one that throws leaves the memory as it is. -/
def memAfter (T : ℕ) (ls : List (Local K n nu)) : Mem K :=
  ls.foldl (fun m l => assembleOn { l with T := T } m) Mem.zero

end
end Verif.Kkt
