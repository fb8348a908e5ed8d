import Verif.Props.BoxInterior
import Verif.Props.BoxOvershoot
import Verif.Props.Reformulate
import Verif.Model.BoxNl

/-! # C132: equivalent descriptions of problems with control limits -/

set_option linter.unusedSectionVars false

namespace Verif.Nl
open Verif Verif.Solve Verif.Solver Verif.Lq Matrix

/-- C132, control limits. Constants added to the costs change nothing but the cost, by their sum, also for the box solvers on
problems with control limits and from whatever the solver object did before (`s`, with the constants in its stored costs). -/
theorem C132_constants_box {n m : Nat} {sig : Nat → ℝ} {sigT : ℝ} {P P' : NlProb n m} (hT : P'.T = P.T) (hx : P'.x0 = P.x0)
    (hf : ∀ t x u, P'.next t x u = P.next t x u) (hc : ∀ t x u, P'.cost t x u = P.cost t x u + sig t)
    (hcT : ∀ x, P'.costT x = P.costT x + sigT) (hm : m ≠ 0)
    {lin : (Nat → Fin n → ℝ) → (Nat → Fin m → ℝ) → Lin ℝ n m} {lim : CtrlLimits ℝ m} {llt : ∀ m, Matrix (Fin m) (Fin m) ℝ → Bool}
    {fac : BoxQp.Fac ℝ} {p : BoxQp.Params ℝ} (kind : Kind) {c : Cfg ℝ} (fuel maxiter : Nat) (xs : Nat → Fin n → ℝ)
    (us : Nat → Fin m → ℝ) (feas : Bool) (regInit : Option ℝ)
    (s : St ℝ (Fin n → ℝ) (Fin n → ℝ) (Fin m → ℝ) (Lin ℝ n m) (BoxDir ℝ n m))
    {o : Outcome ℝ (Fin n → ℝ) (Fin n → ℝ) (Fin m → ℝ) (Lin ℝ n m) (BoxDir ℝ n m)}
    (hr : solve (P.toProbBox lim) c (boxOracleNl P lin lim llt fac p kind) kind fuel maxiter xs us feas regInit s = some o) :
    ∃ o', solve (P'.toProbBox lim) c (boxOracleNl P' lin lim llt fac p kind) kind fuel maxiter xs us feas regInit
        { s with
          datas := fun t => ((s.datas t).1, (s.datas t).2 + sig t)
          tdata := s.tdata + sigT
          cost := s.cost + ((∑ t ∈ Finset.range P.T, sig t) + sigT) } = some o' ∧
      o'.ret = o.ret ∧ (∀ t ≤ P.T, o'.final.xs t = o.final.xs t) ∧ (∀ t < P.T, o'.final.us t = o.final.us t) ∧
      o'.final.cost = o.final.cost + ((∑ t ∈ Finset.range P.T, sig t) + sigT) ∧
      o'.final.iter = o.final.iter ∧ o'.trace.length = o.trace.length := by
  let F : Change ℝ (Fin n → ℝ) (Fin n → ℝ) (Fin m → ℝ) (Fin n → ℝ) (Fin n → ℝ) (Fin m → ℝ) :=
    ⟨1, sig, sigT, id, LinearEquiv.refl _ _, fun _ => LinearEquiv.refl _ _⟩
  have hoff : ∀ T, F.off T = ∑ t ∈ Finset.range T, sig t := by
    intro T
    induction T with
    | zero => rfl
    | succ T ih => rw [Finset.sum_range_succ, ← ih]; rfl
  have htot : F.total P.T = (∑ t ∈ Finset.range P.T, sig t) + sigT := by
    show F.off P.T + sigT = _
    rw [hoff]
  have hP : SameProb F (P.toProbBox lim) (P'.toProbBox lim) :=
    ⟨hT, fun _ => rfl, fun t x u => hf t x u, fun t x u => by
      show P'.cost t x u = 1 * P.cost t x u + sig t
      rw [one_mul]; exact hc t x u, fun t x h => absurd (of_decide_eq_true h) hm, fun t x h => absurd (of_decide_eq_true h) hm,
      fun _ _ _ => rfl, fun _ _ _ => rfl, fun _ _ => rfl, fun x => by
      show P'.costT x = 1 * P.costT x + sigT
      rw [one_mul]; exact hcT x, fun _ _ => rfl, hx⟩
  have hO : SameOracle F id id (P.toProbBox lim).T (fun _ => True) (boxOracleNl P lin lim llt fac p kind)
      (boxOracleNl P' lin lim llt fac p kind) := by
    refine ⟨fun _ => trivial, fun _ _ => rfl, fun s tau _ => ?_, fun _ _ => rfl, fun s tau => ?_, fun _ _ => rfl, fun _ => rfl, fun _ => rfl⟩
    · have e : boxBackward llt fac p lim (s.map F id id (P.toProbBox lim).T tau).us (some (s.map F id id (P.toProbBox lim).T tau).preg)
          (s.map F id id (P.toProbBox lim).T tau).feas P'.T (s.map F id id (P.toProbBox lim).T tau).lin.d
          (s.map F id id (P.toProbBox lim).T tau).lin.LxT (s.map F id id (P.toProbBox lim).T tau).lin.LxxT
          (s.map F id id (P.toProbBox lim).T tau).fs (s.map F id id (P.toProbBox lim).T tau).dir =
          boxBackward llt fac p lim s.us (some s.preg) s.feas P.T s.lin.d s.lin.LxT s.lin.LxxT s.fs s.dir := by
        rw [hT]
        have h1 : (s.map F id id (P.toProbBox lim).T tau).preg = s.preg := one_mul _
        rw [h1]
        rfl
      simp only [boxOracleNl, e]
      cases boxBackward llt fac p lim s.us (some s.preg) s.feas P.T s.lin.d s.lin.LxT s.lin.LxxT s.fs s.dir <;> rfl
    · simp only [boxOracleNl, hT]
      show _ = (1 * _, 1 * _)
      rw [one_mul, one_mul]
      rfl
  obtain ⟨o', r1, r2, r3, r4⟩ := C132_solve hP hO one_pos fuel maxiter xs us feas regInit s 0 hr
  have hsc : c.scale F.lam = c := by
    show c.scale 1 = c
    simp [Cfg.scale]
  have hrg : regInit.map (F.lam * ·) = regInit := by
    show regInit.map (1 * ·) = regInit
    simp
  rw [hsc, hrg] at r1
  have hs : s.map F id id (P.toProbBox lim).T 0 = { s with
      datas := fun t => ((s.datas t).1, (s.datas t).2 + sig t)
      tdata := s.tdata + sigT
      cost := s.cost + ((∑ t ∈ Finset.range P.T, sig t) + sigT) } := by
    have e : F.total (P.toProbBox lim).T = (∑ t ∈ Finset.range P.T, sig t) + sigT := htot
    unfold St.map
    rw [e]
    simp [F]
  rw [hs] at r1
  refine ⟨o', r1, r2, fun t ht => r3.xs t ht, fun t ht => r3.us t ht (decide_eq_false hm), ?_, r3.iter, r4.length_eq.symm⟩
  rw [r3.cost]
  show 1 * _ + F.total P.T = _
  rw [one_mul, htot]

section axes
variable {n m : Nat} {S : Matrix (Fin n) (Fin n) ℝ}

/-- What the backward pass left, in rotated coordinates of the state. -/
def changeBox (S : Matrix (Fin n) (Fin n) ℝ) (g : BoxDir ℝ n m) : BoxDir ℝ n m :=
  { g with arr := changeArrays 1 S (fun _ => 1) g.arr }

theorem update_change (S : Matrix (Fin n) (Fin n) ℝ) (g : Arrays ℝ n (fun _ => m)) (t : Nat) (o : NodeOut ℝ n m) :
    (⟨Function.update (changeArrays 1 S (fun _ => 1) g).V t (changeOut 1 S 1 o).V,
      Function.update (changeArrays 1 S (fun _ => 1) g).out t (changeOut 1 S 1 o)⟩ : Arrays ℝ n (fun _ => m)) =
      changeArrays 1 S (fun _ => 1) ⟨Function.update g.V t o.V, Function.update g.out t o⟩ := by
  unfold changeArrays
  congr 1
  · funext i
    by_cases h : i = t
    · subst h; simp [changeOut]
    · simp [h]
  · funext i
    by_cases h : i = t
    · subst h; simp
    · simp [h]

theorem computeValue_symm (r : ℝ) (feas : Bool) (Q : QTerms ℝ n m) (Kfb : Matrix (Fin m) (Fin n) ℝ) (f : Fin n → ℝ) :
    (computeValue (some r) feas Q Kfb f).Vxxᵀ = (computeValue (some r) feas Q Kfb f).Vxx := by
  refine addDiag_symm r ?_
  rw [transpose_smul, transpose_add, transpose_transpose, add_comm]

/-- A node with limits: the box QP sees the same `Quu` and `Qu`. -/
theorem boxNode_change (hS : Sᵀ * S = 1) {fac : BoxQp.Fac ℝ} {p : BoxQp.Params ℝ} (r : ℝ) (feas : Bool) (lb ub us : Fin m → ℝ)
    (d : Derivs ℝ n m) (V : Value ℝ n) (f : Fin n → ℝ) (k : Fin m → ℝ) (q : BoxQp.Sol ℝ m) :
    boxNode fac p (some r) feas lb ub us (changeDerivs 1 S 1 d) (changeV 1 S V) (S *ᵥ f) k q =
      (boxNode fac p (some r) feas lb ub us d V f k q).map (fun o => (changeOut 1 S 1 o.1, o.2)) := by
  have hW : (1 : Matrix (Fin m) (Fin m) ℝ)ᵀ * 1 = 1 := by simp
  have hQ : actionValue (some r) (changeDerivs 1 S 1 d) (changeV 1 S V) = changeQ 1 S 1 (actionValue (some r) d V) := by
    have := actionValue_change (lam := 1) hS hW r d V
    rwa [one_mul] at this
  unfold boxNode
  simp only [hQ]
  generalize actionValue (some r) d V = Q
  have h1 : (changeQ 1 S 1 Q).Quu = Q.Quu := by simp [changeQ]
  have h2 : (changeQ 1 S 1 Q).Qu = Q.Qu := by simp [changeQ]
  have h3 : (changeQ 1 S 1 Q).Qxuᵀ = Q.Qxuᵀ * Sᵀ := by simp [changeQ]
  unfold BoxQp.boxGains
  rw [h1, h2, h3]
  cases BoxQp.solve fac p Q.Quu Q.Qu (lb - us) (ub - us) k q with
  | none => rfl
  | some e =>
    obtain ⟨q', c⟩ := e
    simp only [Option.map_some, Option.some.injEq, Prod.mk.injEq, and_true]
    have hq : ∀ w : Fin m → ℝ, (⟨(changeQ 1 S 1 Q).Qx, w, (changeQ 1 S 1 Q).Qxx, (changeQ 1 S 1 Q).Qxu, Q.Quu⟩ : QTerms ℝ n m) =
        changeQ 1 S 1 ⟨Q.Qx, w, Q.Qxx, Q.Qxu, Q.Quu⟩ := fun w => by
      simp [changeQ]
    have hv := computeValue_change (lam := 1) hS hW r feas
      { Q with Qu := BoxQp.scatter q'.clamped (fun _ => 0) Q.Qu } (BoxQp.projInv q' * Q.Qxuᵀ) f
    rw [one_mul, Matrix.one_mul] at hv
    rw [hq, ← Matrix.mul_assoc, hv]
    simp [changeOut]

theorem boxBackLoop_change {llt : ∀ m, Matrix (Fin m) (Fin m) ℝ → Bool} (h1 : LltSound llt) (h2 : LltComplete llt) (hS : Sᵀ * S = 1)
    {fac : BoxQp.Fac ℝ} {p : BoxQp.Params ℝ} {lim : CtrlLimits ℝ m} {us : Nat → Fin m → ℝ} (r : ℝ) (feas : Bool)
    (d : Nat → Derivs ℝ n m) (f : Nat → Fin n → ℝ) (t : Nat) (hd : ∀ i < t, (d i).Luuᵀ = (d i).Luu) (g : BoxDir ℝ n m)
    (hV : (g.arr.V t).Vxxᵀ = (g.arr.V t).Vxx) :
    boxBackLoop llt fac p lim us (some r) feas (fun t => changeDerivs 1 S 1 (d t)) (fun t => S *ᵥ f t) t (changeBox S g) =
      (boxBackLoop llt fac p lim us (some r) feas d f t g).map (changeBox S) := by
  induction t generalizing g with
  | zero => rfl
  | succ t ih =>
    unfold boxBackLoop
    split_ifs with hc
    · have hk : ((changeBox S g).arr.out t).k = (g.arr.out t).k := by simp [changeBox, changeArrays, changeOut]
      have hb := boxNode_change hS (fac := fac) (p := p) r feas (lim.lb t) (lim.ub t) (us t) (d t) (g.arr.V (t + 1)) (f t)
        (g.arr.out t).k g.sol
      have hs : (changeBox S g).sol = g.sol := rfl
      have hV' : (changeBox S g).arr.V (t + 1) = changeV 1 S (g.arr.V (t + 1)) := rfl
      rw [hk, hs, hV', hb]
      cases hx : boxNode fac p (some r) feas (lim.lb t) (lim.ub t) (us t) (d t) (g.arr.V (t + 1)) (f t) (g.arr.out t).k g.sol with
      | none => rfl
      | some e =>
        obtain ⟨o, q', c⟩ := e
        simp only [Option.map_some]
        have hg : (⟨⟨Function.update (changeBox S g).arr.V t (changeOut 1 S 1 o).V,
            Function.update (changeBox S g).arr.out t (changeOut 1 S 1 o)⟩, q', (changeBox S g).conv && c⟩ : BoxDir ℝ n m) =
            changeBox S ⟨⟨Function.update g.arr.V t o.V, Function.update g.arr.out t o⟩, q', g.conv && c⟩ := by
          have := update_change S g.arr t o
          unfold changeBox
          rw [← this]
        rw [hg]
        refine ih (fun i hi => hd i (by omega)) _ ?_
        simp only [Function.update_self]
        unfold boxNode at hx
        simp only at hx
        split at hx
        · cases hx
        · simp only [Option.some.injEq, Prod.mk.injEq] at hx
          rw [← hx.1]
          exact computeValue_symm _ _ _ _ _
    · have hW : (1 : Matrix (Fin m) (Fin m) ℝ)ᵀ * 1 = 1 := by simp
      obtain ⟨hb, hv⟩ := backNode_change (lam := 1) h1 h2 one_pos hS hW r feas (d t) (g.arr.V (t + 1)) (f t) (hd t (by omega)) hV
      rw [one_mul] at hb
      have hV' : (changeBox S g).arr.V (t + 1) = changeV 1 S (g.arr.V (t + 1)) := rfl
      rw [hV', hb]
      cases hx : backNode llt (some r) feas (d t) (g.arr.V (t + 1)) (f t) with
      | none => rfl
      | some o =>
        simp only [Option.map_some]
        have hg : ({ changeBox S g with arr := ⟨Function.update (changeBox S g).arr.V t (changeOut 1 S 1 o).V,
            Function.update (changeBox S g).arr.out t (changeOut 1 S 1 o)⟩ } : BoxDir ℝ n m) =
            changeBox S { g with arr := ⟨Function.update g.arr.V t o.V, Function.update g.arr.out t o⟩ } := by
          have := update_change S g.arr t o
          unfold changeBox
          rw [← this]
        rw [hg]
        refine ih (fun i hi => hd i (by omega)) _ ?_
        simpa using hv o hx

theorem boxBackward_change {llt : ∀ m, Matrix (Fin m) (Fin m) ℝ → Bool} (h1 : LltSound llt) (h2 : LltComplete llt) (hS : Sᵀ * S = 1)
    {fac : BoxQp.Fac ℝ} {p : BoxQp.Params ℝ} {lim : CtrlLimits ℝ m} {us : Nat → Fin m → ℝ} (r : ℝ) (feas : Bool) (T : Nat)
    {l : Lin ℝ n m} (hL : SymmHess T l) (f : Nat → Fin n → ℝ) (g : BoxDir ℝ n m) :
    boxBackward llt fac p lim us (some r) feas T (changeLin 1 S (fun _ => 1) l).d (changeLin 1 S (fun _ => 1) l).LxT
        (changeLin 1 S (fun _ => 1) l).LxxT (fun t => S *ᵥ f t) (changeBox S g) =
      (boxBackward llt fac p lim us (some r) feas T l.d l.LxT l.LxxT f g).map (changeBox S) := by
  unfold boxBackward
  have e : (⟨⟨Function.update (changeBox S g).arr.V T
        (termValue (some r) feas (changeLin 1 S (fun _ => 1) l).LxT (changeLin 1 S (fun _ => 1) l).LxxT (S *ᵥ f T)),
        (changeBox S g).arr.out⟩, (changeBox S g).sol, true⟩ : BoxDir ℝ n m) =
      changeBox S { g with
        arr := { g.arr with V := Function.update g.arr.V T (termValue (some r) feas l.LxT l.LxxT (f T)) }
        conv := true } := by
    have ht := termValue_change (lam := 1) hS r feas l.LxT l.LxxT (f T)
    rw [one_mul] at ht
    simp only [changeLin, ht]
    unfold changeBox changeArrays
    congr 2
    funext i
    by_cases h : i = T
    · subst h; simp
    · simp [h]
  simp only [e]
  refine boxBackLoop_change h1 h2 hS r feas l.d f T hL.Luu _ ?_
  simp only [Function.update_self]
  exact addDiag_symm r hL.term

/-- C132, control limits. The box solvers on problems with control limits, with the state in coordinates rotated by `S` and constants
added to the costs, from the same guess and corresponding solver states: same returned value, corresponding trajectory, same
controls, same cost up to the constants, same number of iterations. -/
theorem C132_state_axes_box (hS : Sᵀ * S = 1) {sig : Nat → ℝ} {sigT : ℝ} {P P' : NlProb n m}
    (h : SameNl 1 sig sigT S (fun _ => 1) P P') (hm : m ≠ 0) {lin lin' : (Nat → Fin n → ℝ) → (Nat → Fin m → ℝ) → Lin ℝ n m}
    (hlin : ∀ xs us, lin' (fun t => S *ᵥ xs t) us = changeLin 1 S (fun _ => 1) (lin xs us))
    (hsym : ∀ xs us, SymmHess P.T (lin xs us)) {llt : ∀ m, Matrix (Fin m) (Fin m) ℝ → Bool} (h1 : LltSound llt) (h2 : LltComplete llt)
    {lim : CtrlLimits ℝ m} {fac : BoxQp.Fac ℝ} {p : BoxQp.Params ℝ} (kind : Kind) {c : Cfg ℝ} (fuel maxiter : Nat)
    (xs : Nat → Fin n → ℝ) (us : Nat → Fin m → ℝ) (feas : Bool) (regInit : Option ℝ)
    (s : St ℝ (Fin n → ℝ) (Fin n → ℝ) (Fin m → ℝ) (Lin ℝ n m) (BoxDir ℝ n m))
    {o : Outcome ℝ (Fin n → ℝ) (Fin n → ℝ) (Fin m → ℝ) (Lin ℝ n m) (BoxDir ℝ n m)}
    (hr : solve (P.toProbBox lim) c (boxOracleNl P lin lim llt fac p kind) kind fuel maxiter xs us feas regInit s = some o) :
    ∃ o', solve (P'.toProbBox lim) c (boxOracleNl P' lin' lim llt fac p kind) kind fuel maxiter (fun t => S *ᵥ xs t) us feas regInit
        (s.map (orthChange 1 sig sigT S hS (fun _ => 1) (fun _ => by simp)) (changeLin 1 S (fun _ => 1)) (changeBox S) P.T 0) = some o' ∧
      o'.ret = o.ret ∧ (∀ t ≤ P.T, o'.final.xs t = S *ᵥ o.final.xs t) ∧ (∀ t < P.T, o'.final.us t = o.final.us t) ∧
      o'.final.feas = o.final.feas ∧ o'.final.cost = o.final.cost + ((∑ t ∈ Finset.range P.T, sig t) + sigT) ∧
      o'.final.preg = o.final.preg ∧ o'.final.iter = o.final.iter ∧ o'.trace.length = o.trace.length := by
  have hW : ∀ t : Nat, ((fun _ => 1 : Nat → Matrix (Fin m) (Fin m) ℝ) t)ᵀ * (fun _ => 1 : Nat → Matrix (Fin m) (Fin m) ℝ) t = 1 :=
    fun _ => by simp
  let F := orthChange 1 sig sigT S hS (fun _ => (1 : Matrix (Fin m) (Fin m) ℝ)) hW
  have hu : ∀ t v, F.u t v = v := fun t v => one_mulVec v
  have hP0 := sameProb_of hS hW h hm
  have hP : SameProb F (P.toProbBox lim) (P'.toProbBox lim) :=
    ⟨hP0.T, fun _ => rfl, hP0.next, hP0.cost, hP0.nextT, hP0.costT, hP0.diff, hP0.integ, fun t u => by rw [hu, hu]; rfl,
      hP0.tcost, hP0.tinteg, hP0.x0⟩
  have hO : SameOracle F (changeLin 1 S (fun _ => 1)) (changeBox S) P.T (SymmHess P.T)
      (boxOracleNl P lin lim llt fac p kind) (boxOracleNl P' lin' lim llt fac p kind) := by
    refine ⟨fun s => hsym _ _, fun s tau => ?_, fun s tau hs => ?_, fun _ _ => rfl, fun s tau => ?_, fun _ _ => rfl, fun _ => rfl,
      fun _ => rfl⟩
    · show lin' (fun t => S *ᵥ s.xs t) (fun t => F.u t (s.us t)) = _
      simp only [hu]
      exact hlin _ _
    · have hb := boxBackward_change h1 h2 hS (fac := fac) (p := p) (lim := lim) (us := s.us) s.preg s.feas P.T hs s.fs s.dir
      have e : boxBackward llt fac p lim (s.map F (changeLin 1 S (fun _ => 1)) (changeBox S) P.T tau).us
          (some (s.map F (changeLin 1 S (fun _ => 1)) (changeBox S) P.T tau).preg)
          s.feas P'.T (changeLin 1 S (fun _ => 1) s.lin).d (changeLin 1 S (fun _ => 1) s.lin).LxT
          (changeLin 1 S (fun _ => 1) s.lin).LxxT (fun t => S *ᵥ s.fs t) (changeBox S s.dir) =
          (boxBackward llt fac p lim s.us (some s.preg) s.feas P.T s.lin.d s.lin.LxT s.lin.LxxT s.fs s.dir).map (changeBox S) := by
        have i1 : (s.map F (changeLin 1 S (fun _ => 1)) (changeBox S) P.T tau).preg = s.preg := one_mul _
        have i2 : (s.map F (changeLin 1 S (fun _ => 1)) (changeBox S) P.T tau).us = s.us := funext fun t => hu t _
        rw [i1, i2, h.T]
        exact hb
      have e' : (boxOracleNl P' lin' lim llt fac p kind).backward (s.map F (changeLin 1 S (fun _ => 1)) (changeBox S) P.T tau) =
          match boxBackward llt fac p lim (s.map F (changeLin 1 S (fun _ => 1)) (changeBox S) P.T tau).us
            (some (s.map F (changeLin 1 S (fun _ => 1)) (changeBox S) P.T tau).preg)
            s.feas P'.T (changeLin 1 S (fun _ => 1) s.lin).d (changeLin 1 S (fun _ => 1) s.lin).LxT
            (changeLin 1 S (fun _ => 1) s.lin).LxxT (fun t => S *ᵥ s.fs t) (changeBox S s.dir) with
          | some g => (true, fun t => (g.arr.out t).k, fun t dx => (g.arr.out t).Kfb *ᵥ dx, g)
          | none => (false, fun t => F.u t (s.k t), fun t dx => F.u t (s.gain t (Sᵀ *ᵥ dx)), changeBox S s.dir) := rfl
      rw [e', e]
      simp only [boxOracleNl]
      cases boxBackward llt fac p lim s.us (some s.preg) s.feas P.T s.lin.d s.lin.LxT s.lin.LxxT s.fs s.dir with
      | none => rfl
      | some g =>
        simp only [Option.map_some, Prod.mk.injEq, true_and]
        refine ⟨rfl, ?_, trivial⟩
        funext t dx
        show (1 * (g.arr.out t).Kfb * Sᵀ) *ᵥ dx = F.u t ((g.arr.out t).Kfb *ᵥ (Sᵀ *ᵥ dx))
        rw [hu, Matrix.one_mul, mulVec_mulVec]
    · simp only [boxOracleNl, h.T]
      cases kind.feasibilityDriven
      · exact expected_change hS hW P.T s.dir.arr
      · have := expectedFddp_change (lam := 1) hS hW P.T s.feas s.fs (fun t => s.xs t - s.xsTry t) s.dir.arr
        simp only [mulVec_sub] at this
        exact this
  obtain ⟨o', r1, r2, r3, r4⟩ := C132_solve hP hO one_pos fuel maxiter xs us feas regInit s 0 hr
  have hsc : c.scale F.lam = c := by
    show c.scale 1 = c
    simp [Cfg.scale]
  have hrg : regInit.map (F.lam * ·) = regInit := by
    show regInit.map (1 * ·) = regInit
    simp
  have hus : (fun t => F.u t (us t)) = us := funext fun t => hu t _
  rw [hsc, hrg, hus] at r1
  refine ⟨o', r1, r2, r3.xs, fun t ht => (r3.us t ht (decide_eq_false hm)).trans (hu t _), r3.feas, ?_, ?_, r3.iter, r4.length_eq.symm⟩
  · rw [r3.cost]
    show 1 * _ + F.total P.T = _
    rw [one_mul]
    exact congrArg _ (off_eq hS hW P.T)
  · rw [r3.preg]
    exact one_mul _

end axes

/-- If the first round finds a direction, `solve` with one iteration returns. -/
theorem solve_one {K X DX U L D : Type} [Field K] [LinearOrder K] [AddCommGroup DX] [Module K DX] [AddCommGroup U] [Module K U]
    {P : Prob K X DX U} {c : Cfg K} {O : Oracle K X DX U L D} {kind : Kind} {fuel : Nat} {xs : Nat → X} {us : Nat → U} {feas : Bool}
    {regInit : Option K} {s : St K X DX U L D} {r : Bool × St K X DX U L D}
    (h : dirLoop P c O fuel (start P c xs us feas regInit s) = some r) :
    ∃ e b s3 o, iteration P c O kind fuel (start P c xs us feas regInit s) = some (e, b, s3) ∧
      solve P c O kind fuel 1 xs us feas regInit s = some o ∧ o.final.xs = s3.xs ∧ o.final.us = s3.us := by
  have hi : ∃ e b s3, iteration P c O kind fuel (start P c xs us feas regInit s) = some (e, b, s3) := by
    obtain ⟨b, s2⟩ := r
    unfold iteration
    rw [h]
    cases b
    · exact ⟨_, _, _, rfl⟩
    · dsimp only
      split_ifs <;> exact ⟨_, _, _, rfl⟩
  obtain ⟨e, b, s3, hi⟩ := hi
  unfold solve iterLoop
  rw [hi]
  cases e <;> exact ⟨_, _, _, _, rfl, rfl, rfl, rfl⟩

/-- The hypotheses of `C132_constants_box` are met: `Demo.prob` with the limits `[-1, 1]`, and with `3` added to the cost of its node
and `5` to the terminal cost. -/
example (kind : Kind) (c : Cfg ℝ) (s0 : BoxSt 1 1) (hs0 : s0.dir = BoxDemo.dir (-1 / 2)) :
    let P' : NlProb 1 1 := { Demo.prob with cost := fun t x u => Demo.prob.cost t x u + 3, costT := fun x => Demo.prob.costT x + 5 }
    ∃ o o', solve (Demo.prob.toProbBox (BoxDemo.lim (-1))) c
        (boxOracleNl Demo.prob Demo.dlin (BoxDemo.lim (-1)) Demo.chol BoxDemo.fac BoxDemo.params kind) kind 1 1
        (fun _ _ => 1) (fun _ _ => 0) true (some 0) s0 = some o ∧
      solve (P'.toProbBox (BoxDemo.lim (-1))) c
        (boxOracleNl P' Demo.dlin (BoxDemo.lim (-1)) Demo.chol BoxDemo.fac BoxDemo.params kind) kind 1 1
        (fun _ _ => 1) (fun _ _ => 0) true (some 0)
        { s0 with
          datas := fun t => ((s0.datas t).1, (s0.datas t).2 + 3)
          tdata := s0.tdata + 5
          cost := s0.cost + ((∑ t ∈ Finset.range Demo.prob.T, (3 : ℝ)) + 5) } = some o' ∧
      o'.final.us 0 = o.final.us 0 ∧ o'.final.cost = o.final.cost + 8 := by
  intro P'
  obtain ⟨g, h1, -⟩ := BoxDemo.pass_of (b := -1) (w := -1 / 2) (x := -1 / 2) BoxDemo.inside
  obtain ⟨s2, hd, -⟩ := BoxDemo.first_direction kind c s0 hs0 h1
  obtain ⟨-, -, -, o, -, ho, -⟩ := solve_one (kind := kind) hd
  obtain ⟨o', i1, -, -, i2, i3, -⟩ := C132_constants_box (P := Demo.prob) (P' := P') (sig := fun _ => 3) (sigT := 5)
    (lin := Demo.dlin) (lim := BoxDemo.lim (-1)) (llt := Demo.chol) (fac := BoxDemo.fac) (p := BoxDemo.params) (c := c) rfl rfl
    (fun _ _ _ => rfl) (fun _ _ _ => rfl) (fun _ => rfl) (by norm_num) kind 1 1 (fun _ _ => 1) (fun _ _ => 0) true (some 0) s0 ho
  have hT : Demo.prob.T = 1 := rfl
  refine ⟨o, o', ho, i1, i2 0 (by rw [hT]; norm_num), ?_⟩
  rw [i3, hT]
  norm_num

/-- The hypotheses of `C132_state_axes_box` are met: `Demo.prob` with the limits `[-1, 1]` and the axis of the state reversed. -/
example (kind : Kind) (c : Cfg ℝ) (s0 : BoxSt 1 1) (hs0 : s0.dir = BoxDemo.dir (-1 / 2)) :
    ∃ o o', solve (Demo.prob.toProbBox (BoxDemo.lim (-1))) c
        (boxOracleNl Demo.prob Demo.dlin (BoxDemo.lim (-1)) Demo.chol BoxDemo.fac BoxDemo.params kind) kind 1 1
        (fun _ _ => 1) (fun _ _ => 0) true (some 0) s0 = some o ∧
      solve ((rewritten 1 (fun _ => 3) 5 (-1) (fun _ => 1) Demo.prob).toProbBox (BoxDemo.lim (-1))) c
        (boxOracleNl (rewritten 1 (fun _ => 3) 5 (-1) (fun _ => 1) Demo.prob)
          (fun ys ws => changeLin 1 (-1) (fun _ => 1) (Demo.dlin (fun t => (-1 : Matrix (Fin 1) (Fin 1) ℝ)ᵀ *ᵥ ys t) ws))
          (BoxDemo.lim (-1)) Demo.chol BoxDemo.fac BoxDemo.params kind) kind 1 1
        (fun _ => (-1 : Matrix (Fin 1) (Fin 1) ℝ) *ᵥ fun _ => 1) (fun _ _ => 0) true (some 0)
        (s0.map (orthChange 1 (fun _ => 3) 5 (-1) (by simp) (fun _ => 1) (fun _ => by simp)) (changeLin 1 (-1) (fun _ => 1))
          (changeBox (-1)) 1 0) = some o' ∧
      o'.final.xs 1 = (-1 : Matrix (Fin 1) (Fin 1) ℝ) *ᵥ o.final.xs 1 ∧ o'.final.us 0 = o.final.us 0 ∧
      o'.final.cost = o.final.cost + 8 := by
  obtain ⟨g, h1, -⟩ := BoxDemo.pass_of (b := -1) (w := -1 / 2) (x := -1 / 2) BoxDemo.inside
  obtain ⟨s2, hd, -⟩ := BoxDemo.first_direction kind c s0 hs0 h1
  obtain ⟨-, -, -, o, -, ho, -⟩ := solve_one (kind := kind) hd
  have hS : (-1 : Matrix (Fin 1) (Fin 1) ℝ)ᵀ * (-1) = 1 := by simp
  obtain ⟨hsame, -⟩ := rewritten_same 1 (fun _ => 3) 5 hS (W := fun _ => 1) (fun _ => by simp) Demo.prob Demo.dlin
  obtain ⟨o', i1, -, i0, i2, -, i3, -⟩ := C132_state_axes_box (P := Demo.prob) hS hsame (by norm_num)
    (lin := Demo.dlin) (lim := BoxDemo.lim (-1)) (llt := Demo.chol) (fac := BoxDemo.fac) (p := BoxDemo.params) (c := c)
    (lin' := fun ys ws => changeLin 1 (-1) (fun _ => 1) (Demo.dlin (fun t => (-1 : Matrix (Fin 1) (Fin 1) ℝ)ᵀ *ᵥ ys t) ws))
    (fun xs us => by simp only [mulVec_mulVec, hS, one_mulVec]) (fun xs us => Demo.symmHess _ _) Demo.chol_sound Demo.chol_complete
    kind 1 1 (fun _ _ => 1) (fun _ _ => 0) true (some 0) s0 ho
  have hT : Demo.prob.T = 1 := rfl
  refine ⟨o, o', ho, i1, i0 1 hT.ge, i2 0 (by rw [hT]; norm_num), ?_⟩
  rw [i3, hT]
  norm_num

end Verif.Nl

namespace Verif.Nl.Overshoot
open Verif Verif.Solve Verif.Lq Matrix
open Verif.Lq.BoxDemo (cfg)

/-- `prob` with its costs multiplied by `10⁻⁵`. -/
def probS : LqProb ℚ 1 (fun _ => 2) where
  T := 1
  node := fun _ => ⟨fun _ _ => 0, fun _ => ![0, 0], fun _ => 0, fun _ _ => 0,
    ![![1 / 10 ^ 5, 1 / 10 ^ 5 * (9999 / 10000)], ![1 / 10 ^ 5 * (9999 / 10000), 1 / 10 ^ 5]], fun _ => ![0, 0],
    fun _ => 0, ![1 / 10 ^ 5 * (-9959 / 10000), 1 / 10 ^ 5 * -1]⟩
  term := ⟨fun _ _ => 1 / 10 ^ 5, fun _ i => i.elim0, fun _ => 0, fun _ _ => 0, fun i => i.elim0, fun _ i => i.elim0, fun _ => 0,
    fun i => i.elim0⟩
  x0 := fun _ => 0

/-- The box solvers with default parameters on it. -/
noncomputable abbrev oraS (kind : Kind) :=
  boxOracle probS lim Lq.BoxDemo.noLlt BoxQp.Demo.fac (BoxQp.Demo.params 100 (1 / 10 ^ 5) 0) kind

/-- C132, counterexample. With control limits, multiplying all costs by `10⁻⁵` changes what the box solvers return, although the
thresholds and the regularisation are multiplied as well: the gradient threshold of the box QP is fixed to `10⁻⁵`. The first
iteration keeps the zero controls for the one description and moves the first control to its limit `-20` for the other. -/
theorem C132_box_scale_counterexample {kind : Kind} (hk : kind.box = true) :
    (probS.T = prob.T ∧ probS.x0 = prob.x0 ∧
      (∀ t x u, (probS.node t).next x u = (prob.node t).next x u) ∧
      (∀ t x u, (probS.node t).cost x u = 1 / 10 ^ 5 * (prob.node t).cost x u) ∧
      (∀ x, probS.term.costT x = 1 / 10 ^ 5 * prob.term.costT x)) ∧
    ∃ o o', solve (prob.toProbBox lim) cfg (ora kind) kind 40 1 (fun _ _ => 0) (fun _ _ => 0) true none Clamped.new = some o ∧
      solve (probS.toProbBox lim) (cfg.scale (1 / 10 ^ 5)) (oraS kind) kind 40 1 (fun _ _ => 0) (fun _ _ => 0) true none Clamped.new
        = some o' ∧
      o.final.us 0 0 = 0 ∧ o'.final.us 0 0 = -20 := by
  refine ⟨⟨rfl, rfl, fun t x u => ?_, fun t x u => ?_, fun x => ?_⟩, ?_⟩
  · rfl
  · simp [prob, probS, Lqr.cost, mulVec, dotProduct, Fin.sum_univ_two]
    ring
  · simp [prob, probS, Lqr.costT, mulVec, dotProduct]
  have h' : (solve (probS.toProbBox lim) (cfg.scale (1 / 10 ^ 5)) (oraS kind) kind 40 1 (fun _ _ => 0) (fun _ _ => 0) true none
      Clamped.new).any (fun o => decide (o.final.us 0 0 = -20)) = true := by
    cases kind
    case ddp => simp [Kind.box] at hk
    case fddp => simp [Kind.box] at hk
    case boxDdp => decide +kernel
    case boxFddp => decide +kernel
  obtain ⟨o', h1, h2⟩ := Lq.BoxDemo.exists_of_check h'
  obtain ⟨-, -, s2, hd, -, -, hs⟩ := C140_overshoot_counterexample hk
  obtain ⟨s2', hd', hD⟩ := directed hk
  rw [hd'] at hd
  simp only [Option.some.injEq, Prod.mk.injEq, true_and] at hd
  subst hd
  obtain ⟨e, b, s3, o, hi, ho, -, hu⟩ := solve_one (kind := kind) hd'
  refine ⟨o, o', ho, h1, ?_, of_decide_eq_true h2⟩
  rw [hu, (hs e b s3 hi).2, hD.us]

end Verif.Nl.Overshoot
