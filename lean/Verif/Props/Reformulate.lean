import Verif.Lemmas.ReformulateNl
import Verif.Props.Forget
import Mathlib.Algebra.BigOperators.Group.Finset.Basic

set_option linter.unusedSectionVars false

/-!
# Property C132: equivalent descriptions of a problem are solved alike
-/

namespace Verif.Solve
open Verif Verif.Solver

section
variable {K X DX U L D X' DX' U' L' D' : Type}
variable [Field K] [LinearOrder K] [IsStrictOrderedRing K]
variable [AddCommGroup DX] [Module K DX] [AddCommGroup U] [Module K U]
variable [AddCommGroup DX'] [Module K DX'] [AddCommGroup U'] [Module K U']
variable {F : Change K X DX U X' DX' U'} {P : Prob K X DX U} {P' : Prob K X' DX' U'} {c : Cfg K}
variable {fL : L → L'} {fD : D → D'} {O : Oracle K X DX U L D} {O' : Oracle K X' DX' U' L' D'} {kind : Kind}
variable {ok : L → Prop}

theorem SameRun.of_map (F : Change K X DX U X' DX' U') (P : Prob K X DX U) (tau : K) (s : St K X DX U L D) :
    SameRun F P s (s.map F fL fD P.T tau) :=
  ⟨fun _ _ => rfl, fun _ _ _ => rfl, rfl, rfl, fun _ _ => rfl, rfl, rfl, rfl, rfl⟩

/-- C132. Two descriptions of the same problem: if the derivatives, the backward pass and the predicted
improvement commute with the change of description, so does `solve`, for each of the four solvers. From the same
guess, with thresholds and regularisation multiplied by the factor of the costs, both return the same value after
the same iterations, with candidates, gaps, costs and stopping criteria that correspond, and so do the states seen by
the callbacks. -/
theorem C132_solve (hP : SameProb F P P') (hO : SameOracle F fL fD P.T ok O O') (hl : 0 < F.lam) (fuel maxiter : Nat)
    (xs : Nat → X) (us : Nat → U) (feas : Bool) (regInit : Option K) (s : St K X DX U L D) (tau : K)
    {o : Outcome K X DX U L D} (hr : solve P c O kind fuel maxiter xs us feas regInit s = some o) :
    ∃ o', solve P' (c.scale F.lam) O' kind fuel maxiter (fun t => F.x (xs t)) (fun t => F.u t (us t)) feas
        (regInit.map (F.lam * ·)) (s.map F fL fD P.T tau) = some o' ∧
      o'.ret = o.ret ∧ SameRun F P o.final o'.final ∧ List.Forall₂ (SameRun F P) o.trace o'.trace := by
  unfold solve at hr ⊢
  rw [start_map hP]
  rcases iterLoop_map (c := c) (kind := kind) hP hO hl fuel maxiter tau
    (s := start P c xs us feas regInit s) (fun h => by cases h) with ⟨h1, -⟩ | ⟨o1, o', h1, h2, h3, ⟨tau', h4⟩, h5⟩
  · rw [h1] at hr; cases hr
  · rw [h1] at hr
    obtain rfl := Option.some.inj hr
    refine ⟨o', h2, h3, by rw [h4]; exact SameRun.of_map F P tau' _, h5.imp ?_⟩
    rintro v v' ⟨tau'', rfl⟩
    exact SameRun.of_map F P tau'' v

end
end Verif.Solve

namespace Verif.Nl
open Verif Verif.Solve Verif.Solver Verif.Lq Matrix

variable {n m : Nat}

theorem off_eq {lam : ℝ} {sig : Nat → ℝ} {sigT : ℝ} {S : Matrix (Fin n) (Fin n) ℝ} (hS : Sᵀ * S = 1)
    {W : Nat → Matrix (Fin m) (Fin m) ℝ} (hW : ∀ t, (W t)ᵀ * W t = 1) (T : Nat) :
    (orthChange lam sig sigT S hS W hW).total T = (∑ t ∈ Finset.range T, sig t) + sigT := by
  have : ∀ T, (orthChange lam sig sigT S hS W hW).off T = ∑ t ∈ Finset.range T, sig t := by
    intro T
    induction T with
    | zero => rfl
    | succ T ih => rw [Finset.sum_range_succ, ← ih]; rfl
  unfold Change.total
  rw [this]
  rfl

/-- C132, for the solvers as they are (DDP and FDDP on every nonlinear problem, BoxDDP and BoxFDDP on problems without
control limits). The state is written in coordinates rotated by `S`, the controls of node `t` in coordinates rotated by
`W t`, all costs are multiplied by `lam > 0`, constants are added to them, and the stopping threshold, the gradient
threshold and the regularisation are multiplied by `lam`. From the same guess, and whatever the two solver objects did
before, the results correspond: same returned value, same trajectory, same cost up to factor and constants, same number
of iterations. -/
theorem C132_nonlinear {lam : ℝ} (hl : 0 < lam) {sig : Nat → ℝ} {sigT : ℝ} {S : Matrix (Fin n) (Fin n) ℝ}
    (hS : Sᵀ * S = 1) {W : Nat → Matrix (Fin m) (Fin m) ℝ} (hW : ∀ t, (W t)ᵀ * W t = 1) {P P' : NlProb n m}
    (h : SameNl lam sig sigT S W P P') (hm : m ≠ 0)
    {lin lin' : (Nat → Fin n → ℝ) → (Nat → Fin m → ℝ) → Lin ℝ n m}
    (hlin : ∀ xs us, lin' (fun t => S *ᵥ xs t) (fun t => W t *ᵥ us t) = changeLin lam S W (lin xs us))
    (hnodes : ∀ xs xs' us us', (∀ t ≤ P'.T, xs t = xs' t) → (∀ t < P'.T, us t = us' t) → lin' xs us = lin' xs' us')
    (hsym : ∀ xs us, SymmHess P.T (lin xs us)) {llt : ∀ m, Matrix (Fin m) (Fin m) ℝ → Bool} (h1 : LltSound llt)
    (h2 : LltComplete llt) (kind : Kind) {c : Cfg ℝ} (hne : c.alphas ≠ []) (fuel : Nat)
    {maxiter : Nat} (hmax : maxiter ≠ 0) (xs : Nat → Fin n → ℝ) (us : Nat → Fin m → ℝ) (feas : Bool)
    (regInit : Option ℝ) (s s' : NlSt n m)
    {o : Outcome ℝ (Fin n → ℝ) (Fin n → ℝ) (Fin m → ℝ) (Lin ℝ n m) (Arrays ℝ n (fun _ => m))}
    (hr : solve P.toProb c (oracle P lin llt kind) kind fuel maxiter xs us feas regInit s = some o) :
    ∃ o', solve P'.toProb (c.scale lam) (oracle P' lin' llt kind) kind fuel maxiter (fun t => S *ᵥ xs t)
        (fun t => W t *ᵥ us t) feas (regInit.map (lam * ·)) s' = some o' ∧
      o'.ret = o.ret ∧ (∀ t ≤ P.T, o'.final.xs t = S *ᵥ o.final.xs t) ∧
      (∀ t < P.T, o'.final.us t = W t *ᵥ o.final.us t) ∧ o'.final.feas = o.final.feas ∧
      o'.final.cost = lam * o.final.cost + ((∑ t ∈ Finset.range P.T, sig t) + sigT) ∧
      o'.final.preg = lam * o.final.preg ∧ o'.final.iter = o.final.iter ∧ o'.trace.length = o.trace.length := by
  obtain ⟨o1, r1, r2, r3, r4⟩ := C132_solve (sameProb_of hS hW h hm)
    (sameOracle_of (sig := sig) (sigT := sigT) hl hS hW h.T hlin hsym h1 h2 kind) hl fuel maxiter xs us feas regInit s 0 hr
  obtain ⟨o', q1, q2, q3, q4⟩ := C126_solve_partial (oracle_readsFresh P' hnodes llt kind) (c := c.scale lam)
    hne fuel hmax _ _ feas _ _ s' r1
  have hT : P'.toProb.T = P.T := h.T
  refine ⟨o', q1, q2.trans r2, fun t ht => (q3.xs t (hT ▸ ht)).symm.trans (r3.xs t ht), fun t ht => ?_,
    q3.feas.symm.trans r3.feas, ?_, q3.preg.symm.trans r3.preg, q3.iter.symm.trans r3.iter,
    q4.length_eq.symm.trans r4.length_eq.symm⟩
  · exact (q3.us t (hT ▸ ht) (decide_eq_false hm)).symm.trans (r3.us t ht (decide_eq_false hm))
  · rw [← q3.cost, r3.cost]
    exact congrArg _ (off_eq hS hW P.T)

/-- C132. Constants added to the costs change nothing but the cost, by their sum. -/
theorem C132_constants {sig : Nat → ℝ} {sigT : ℝ} {P P' : NlProb n m} (hT : P'.T = P.T) (hx : P'.x0 = P.x0)
    (hf : ∀ t x u, P'.next t x u = P.next t x u) (hc : ∀ t x u, P'.cost t x u = P.cost t x u + sig t)
    (hcT : ∀ x, P'.costT x = P.costT x + sigT) (hm : m ≠ 0)
    {lin : (Nat → Fin n → ℝ) → (Nat → Fin m → ℝ) → Lin ℝ n m}
    (hnodes : ∀ xs xs' us us', (∀ t ≤ P.T, xs t = xs' t) → (∀ t < P.T, us t = us' t) → lin xs us = lin xs' us')
    (hsym : ∀ xs us, SymmHess P.T (lin xs us)) {llt : ∀ m, Matrix (Fin m) (Fin m) ℝ → Bool} (h1 : LltSound llt)
    (h2 : LltComplete llt) (kind : Kind) {c : Cfg ℝ} (hne : c.alphas ≠ []) (fuel : Nat)
    {maxiter : Nat} (hmax : maxiter ≠ 0) (xs : Nat → Fin n → ℝ) (us : Nat → Fin m → ℝ) (feas : Bool)
    (regInit : Option ℝ) (s s' : NlSt n m)
    {o : Outcome ℝ (Fin n → ℝ) (Fin n → ℝ) (Fin m → ℝ) (Lin ℝ n m) (Arrays ℝ n (fun _ => m))}
    (hr : solve P.toProb c (oracle P lin llt kind) kind fuel maxiter xs us feas regInit s = some o) :
    ∃ o', solve P'.toProb c (oracle P' lin llt kind) kind fuel maxiter xs us feas regInit s' = some o' ∧
      o'.ret = o.ret ∧ (∀ t ≤ P.T, o'.final.xs t = o.final.xs t) ∧ (∀ t < P.T, o'.final.us t = o.final.us t) ∧
      o'.final.cost = o.final.cost + ((∑ t ∈ Finset.range P.T, sig t) + sigT) ∧
      o'.final.iter = o.final.iter ∧ o'.trace.length = o.trace.length := by
  have hsame : SameNl 1 sig sigT 1 (fun _ => 1) P P' :=
    ⟨hT, fun t x u => by simp [hf], fun t x u => by simp [hc], fun x => by simp [hcT], by simp [hx]⟩
  have hcl : ∀ l : Lin ℝ n m, changeLin 1 1 (fun _ => 1) l = l := fun l => by
    simp [changeLin, changeDerivs]
  have hsc : c.scale 1 = c := by simp [Cfg.scale]
  obtain ⟨o', r1, r2, r3, r4, -, r5, -, r6, r7⟩ := C132_nonlinear one_pos (by simp) (fun _ => by simp) hsame hm
    (lin := lin) (lin' := lin) (fun xs us => by simp [hcl]) (by rw [hT]; exact hnodes) hsym h1 h2 kind hne fuel hmax xs us
    feas regInit s s' hr
  rw [hsc] at r1
  simp only [one_mulVec, one_mul, Option.map_id'] at r1 r3 r4 r5
  exact ⟨o', r1, r2, r3, r4, r5, r6, r7⟩

/-- The problem `P` in rotated coordinates, with scaled and shifted costs. -/
def rewritten (lam : ℝ) (sig : Nat → ℝ) (sigT : ℝ) (S : Matrix (Fin n) (Fin n) ℝ) (W : Nat → Matrix (Fin m) (Fin m) ℝ)
    (P : NlProb n m) : NlProb n m where
  T := P.T
  next := fun t x u => S *ᵥ P.next t (Sᵀ *ᵥ x) ((W t)ᵀ *ᵥ u)
  cost := fun t x u => lam * P.cost t (Sᵀ *ᵥ x) ((W t)ᵀ *ᵥ u) + sig t
  costT := fun x => lam * P.costT (Sᵀ *ᵥ x) + sigT
  x0 := S *ᵥ P.x0

/-- Every problem has such descriptions, and their derivatives correspond. -/
theorem rewritten_same (lam : ℝ) (sig : Nat → ℝ) (sigT : ℝ) {S : Matrix (Fin n) (Fin n) ℝ} (hS : Sᵀ * S = 1)
    {W : Nat → Matrix (Fin m) (Fin m) ℝ} (hW : ∀ t, (W t)ᵀ * W t = 1) (P : NlProb n m)
    (lin : (Nat → Fin n → ℝ) → (Nat → Fin m → ℝ) → Lin ℝ n m) :
    SameNl lam sig sigT S W P (rewritten lam sig sigT S W P) ∧
    ∀ xs us, (fun ys ws => changeLin lam S W (lin (fun t => Sᵀ *ᵥ ys t) (fun t => (W t)ᵀ *ᵥ ws t)))
      (fun t => S *ᵥ xs t) (fun t => W t *ᵥ us t) = changeLin lam S W (lin xs us) := by
  refine ⟨⟨rfl, fun t x u => ?_, fun t x u => ?_, fun x => ?_, rfl⟩, fun xs us => ?_⟩ <;>
  simp [rewritten, mulVec_mulVec, hS, hW]

namespace ReformulateDemo

/-- One node `x' = x + b u` with cost `½ r u²`, terminal cost `½ q x²`. -/
noncomputable def prob (b r q x0 : ℝ) : NlProb 1 1 where
  T := 1
  next := fun _ x u i => x i + b * u i
  cost := fun _ _ u => (1 / 2) * (r * (u 0 * u 0))
  costT := fun x => (1 / 2) * (q * (x 0 * x 0))
  x0 := fun _ => x0

/-- Its derivatives. -/
noncomputable def dlin (b r q : ℝ) (xs us : Nat → Fin 1 → ℝ) : Lin ℝ 1 1 where
  d := fun t => { Fx := !![1], Fu := !![b], Lx := 0, Lu := fun _ => r * us 0 0, Lxx := 0, Lxu := 0, Luu := !![r] }
  LxT := fun _ => q * xs 1 0
  LxxT := !![q]

/-- The default parameters, with a single step length. -/
noncomputable def cfg : Cfg ℝ where
  alphas := [1]
  thAcceptstep := 1 / 10
  thAcceptnegstep := 2
  thStop := 1 / 10 ^ 9
  thGrad := 1 / 10 ^ 12
  thStepdec := 1 / 2
  thStepinc := 1 / 100
  reg := { min := 1 / 10 ^ 9, max := 10 ^ 9, inc := 10, dec := 10 }

theorem inv_one (a : ℝ) : (!![a] : Matrix (Fin 1) (Fin 1) ℝ)⁻¹ = !![a⁻¹] := by
  rw [Matrix.inv_def]
  ext i j
  simp [Ring.inverse_eq_inv', Matrix.det_fin_one, Matrix.adjugate_subsingleton, Subsingleton.elim i 0, Subsingleton.elim j 0]

/-- The direction with regularisation 1. -/
theorem backward (b r q x0 : ℝ) (h : 0 < r + b * (q + 1) * b + 1) (g : Arrays ℝ 1 (fun _ => 1)) :
    ∃ g', backwardPass Demo.chol (some 1) true 1 (dlin b r q (fun _ _ => x0) (fun _ _ => 0)).d
        (dlin b r q (fun _ _ => x0) (fun _ _ => 0)).LxT (dlin b r q (fun _ _ => x0) (fun _ _ => 0)).LxxT
        (fun _ => 0) g = some g' ∧
      (g'.out 0).k = (fun _ => (r + b * (q + 1) * b + 1)⁻¹ * (b * (q * x0))) ∧
      (g'.out 0).Q.Qu = (fun _ => b * (q * x0)) ∧ (g'.out 0).Q.Quu = !![r + b * (q + 1) * b + 1] := by
  have hc : Demo.chol 1 !![r + b * (q + 1) * b + 1] = true := by
    refine Demo.chol_complete 1 _ (by ext i j; simp [Subsingleton.elim i j]) fun v hv => ?_
    have h0 : v 0 ≠ 0 := fun h => hv (by funext i; rw [Subsingleton.elim i 0, h]; rfl)
    have : v ⬝ᵥ (!![r + b * (q + 1) * b + 1] *ᵥ v) = (r + b * (q + 1) * b + 1) * (v 0 * v 0) := by
      simp [dotProduct, mulVec]; ring
    rw [this]
    exact mul_pos h (mul_self_pos.mpr h0)
  have hq : (actionValue (some 1) ((dlin b r q (fun _ _ => x0) (fun _ _ => 0)).d 0)
      (termValue (some 1) true (dlin b r q (fun _ _ => x0) (fun _ _ => 0)).LxT
        (dlin b r q (fun _ _ => x0) (fun _ _ => 0)).LxxT 0)).Quu = !![r + b * (q + 1) * b + 1] := by
    ext i j
    obtain rfl : i = 0 := Subsingleton.elim _ _
    obtain rfl : j = 0 := Subsingleton.elim _ _
    simp [actionValue, termValue, addDiag, dlin, Matrix.mul_apply]
  have hu : (actionValue (some 1) ((dlin b r q (fun _ _ => x0) (fun _ _ => 0)).d 0)
      (termValue (some 1) true (dlin b r q (fun _ _ => x0) (fun _ _ => 0)).LxT
        (dlin b r q (fun _ _ => x0) (fun _ _ => 0)).LxxT 0)).Qu = fun _ => b * (q * x0) := by
    funext i
    obtain rfl : i = 0 := Subsingleton.elim _ _
    simp [actionValue, termValue, dlin, mulVec, dotProduct]
  unfold backwardPass backLoop backNode computeGains
  simp only [Function.update_self, hq, hc, or_true, if_true, backLoop]
  refine ⟨_, rfl, ?_, ?_, ?_⟩
  · simp only [Function.update_self, inv_one, hu]
    funext i
    obtain rfl : i = 0 := Subsingleton.elim _ _
    simp [dotProduct]
  · simp only [Function.update_self, hu]
  · simp only [Function.update_self, hq]

/-- The full step. -/
theorem full_step {b r q x0 k : ℝ} (hacc : (1 / 10) * ((1 / 2) * (b * (q * x0)) * k) <
      (1 / 2) * (q * (x0 * x0)) - ((1 / 2) * (r * (k * k)) + (1 / 2) * (q * ((x0 - b * k) * (x0 - b * k)))))
    (hpos : 0 ≤ b * (q * x0) * k) (w : NlSt 1 1) (hxs : w.xs 0 = fun _ => x0) (hx0 : w.xsTry 0 = fun _ => x0)
    (hus : w.us 0 = 0) (hk : w.k 0 = fun _ => k) (hg : w.gain 0 0 = 0) (hf : w.feas = true)
    (hc : w.cost = (1 / 2) * (q * (x0 * x0))) (h0 : w.d0 = b * (q * x0) * k) (h1 : w.d1 = - (b * (q * x0) * k)) :
    ∃ v, lineSearch (prob b r q x0).toProb cfg (oracle (prob b r q x0) (dlin b r q) Demo.chol .ddp) .ddp cfg.alphas w = v ∧
      v.us 0 0 = -k ∧ v.feas = true ∧ v.steplength = 1 := by
  have hb : ∀ v : ℝ, (oracle (prob b r q x0) (dlin b r q) Demo.chol .ddp).bad v = false := fun _ => rfl
  have hbx : ∀ v : Fin 1 → ℝ, (oracle (prob b r q x0) (dlin b r q) Demo.chol .ddp).badX v = false := fun _ => rfl
  have hT : (prob b r q x0).toProb.T = 1 := rfl
  have hfw : ∃ v, tryStep (prob b r q x0).toProb (oracle (prob b r q x0) (dlin b r q) Demo.chol .ddp) .ddp 1
      { w with steplength := 1 } = .ok () v ∧ v.usTry 0 0 = -k ∧ v.feas = true ∧ v.steplength = 1 ∧ v.d0 = w.d0 ∧
      v.d1 = w.d1 ∧ v.dV = w.cost - ((1 / 2) * (r * (k * k)) + (1 / 2) * (q * ((x0 - b * k) * (x0 - b * k)))) := by
    unfold tryStep
    rw [Cpp.bind_apply, forwardPass_eq (by norm_num), Cpp.bind_apply, hT]
    simp only [Cpp.forLoop_succ, Cpp.cbind_apply, fwdBody_eq, hb, hbx, Bool.false_eq_true, if_false, Cpp.forLoop_zero,
      Cpp.cpure_apply, fwdTerm_eq, Cpp.modify_apply]
    refine ⟨_, rfl, ?_, ?_, ?_, ?_, ?_, ?_⟩ <;>
    simp [bodyMove, bodyTry, bodyPlace, prob, NlProb.toProb, upd, hxs, hx0, hus, hk, hg, hf, Kind.box, sub_eq_add_neg]
  obtain ⟨v, hv, v1, v2, v3, v4, v5, v6⟩ := hfw
  have hal : cfg.alphas = [1] := rfl
  have hp : probe (prob b r q x0).toProb (oracle (prob b r q x0) (dlin b r q) Demo.chol .ddp) .ddp 1 w =
      (some (), { v with dVexp := 1 * (v.d0 + (1 / 2) * 1 * v.d1) }) := by
    simp only [probe, hv]
    rfl
  have ha : accepts cfg .ddp { v with dVexp := 1 * (v.d0 + (1 / 2) * 1 * v.d1) } = true := by
    have e1 : 0 ≤ 1 * (v.d0 + (1 / 2) * 1 * v.d1) := by rw [v4, v5, h0, h1]; linarith
    have e2 : cfg.thAcceptstep * (1 * (v.d0 + (1 / 2) * 1 * v.d1)) < v.dV := by
      rw [v4, v5, v6, h0, h1, hc]
      have : cfg.thAcceptstep = 1 / 10 := rfl
      rw [this]
      calc _ = (1 / 10) * ((1 / 2) * (b * (q * x0)) * k) := by ring
        _ < _ := hacc
    unfold accepts
    rw [if_neg (by simp [Kind.feasibilityDriven])]
    simp only [decide_eq_true e1, decide_eq_true e2, Bool.or_true, Bool.and_true]
  rw [hal]
  simp only [lineSearch, hp, ha, if_true]
  exact ⟨_, rfl, v1, rfl, v3⟩

/-- One iteration of DDP from zero controls with initial regularisation 1. -/
theorem one_iteration {b r q x0 D k : ℝ} (hD : D = r + b * (q + 1) * b + 1) (h : 0 < D) (hk : k = D⁻¹ * (b * (q * x0)))
    (hacc : (1 / 10) * ((1 / 2) * (b * (q * x0)) * k) <
      (1 / 2) * (q * (x0 * x0)) - ((1 / 2) * (r * (k * k)) + (1 / 2) * (q * ((x0 - b * k) * (x0 - b * k)))))
    (s : NlSt 1 1) :
    ∃ o, solve (prob b r q x0).toProb cfg (oracle (prob b r q x0) (dlin b r q) Demo.chol .ddp) .ddp 1 1
        (fun _ _ => x0) (fun _ _ => 0) true (some 1) s = some o ∧ o.final.us 0 0 = -k ∧ o.final.feas = true := by
  obtain ⟨g, hg, gk, gu, guu⟩ := backward b r q x0 (hD ▸ h) s.dir
  rw [← hD, ← hk] at gk
  rw [← hD] at guu
  generalize hP : prob b r q x0 = P at *
  have hfs : (calcDiff P.toProb (oracle P (dlin b r q) Demo.chol .ddp)
      (start P.toProb cfg (fun _ _ => x0) (fun _ _ => 0) true (some 1) s)).fs = fun _ => 0 := by
    subst hP
    funext t i
    cases t <;> simp [calcDiff, start, problemCalc, prob, NlProb.toProb]
  have hdir : dirLoop P.toProb cfg (oracle P (dlin b r q) Demo.chol .ddp) 1
      (start P.toProb cfg (fun _ _ => x0) (fun _ _ => 0) true (some 1) s) =
      some (true, { (calcDiff P.toProb (oracle P (dlin b r q) Demo.chol .ddp)
        (start P.toProb cfg (fun _ _ => x0) (fun _ _ => 0) true (some 1) s)) with
        k := fun t => (g.out t).k
        gain := fun t dx => (g.out t).Kfb *ᵥ dx
        dir := g }) := by
    have hb : (oracle P (dlin b r q) Demo.chol .ddp).backward (calcDiff P.toProb (oracle P (dlin b r q) Demo.chol .ddp)
        (start P.toProb cfg (fun _ _ => x0) (fun _ _ => 0) true (some 1) s)) =
        (true, fun t => (g.out t).k, fun t dx => (g.out t).Kfb *ᵥ dx, g) := by
      have : backwardPass Demo.chol (some 1) true P.T (dlin b r q (fun _ _ => x0) (fun _ _ => 0)).d
          (dlin b r q (fun _ _ => x0) (fun _ _ => 0)).LxT (dlin b r q (fun _ _ => x0) (fun _ _ => 0)).LxxT
          (calcDiff P.toProb (oracle P (dlin b r q) Demo.chol .ddp)
            (start P.toProb cfg (fun _ _ => x0) (fun _ _ => 0) true (some 1) s)).fs s.dir = some g := by
        rw [hfs, ← hP]; exact hg
      have e : ∀ v : NlSt 1 1, backwardPass Demo.chol (some v.preg) v.feas P.T v.lin.d v.lin.LxT v.lin.LxxT v.fs v.dir =
          some g → (oracle P (dlin b r q) Demo.chol .ddp).backward v =
            (true, fun t => (g.out t).k, fun t dx => (g.out t).Kfb *ᵥ dx, g) := by
        intro v hv
        simp only [oracle, hv]
      exact e _ this
    have hr : (start P.toProb cfg (fun _ _ => x0) (fun _ _ => 0) true (some 1) s).recalc = true := rfl
    simp only [dirLoop, computeDirection, hr, if_true, hb]
  have hcost : (calcDiff P.toProb (oracle P (dlin b r q) Demo.chol .ddp)
      (start P.toProb cfg (fun _ _ => x0) (fun _ _ => 0) true (some 1) s)).cost = (1 / 2) * (q * (x0 * x0)) := by
    subst hP
    simp [calcDiff, start, problemCalc, prob, NlProb.toProb, sumTo]
  have hls : ∃ v, lineSearch P.toProb cfg (oracle P (dlin b r q) Demo.chol .ddp) .ddp cfg.alphas
      (prepare (oracle P (dlin b r q) Demo.chol .ddp) .ddp
        { (calcDiff P.toProb (oracle P (dlin b r q) Demo.chol .ddp)
          (start P.toProb cfg (fun _ _ => x0) (fun _ _ => 0) true (some 1) s)) with
          k := fun t => (g.out t).k
          gain := fun t dx => (g.out t).Kfb *ᵥ dx
          dir := g }) = v ∧ v.us 0 0 = -k ∧ v.feas = true ∧ v.steplength = 1 := by
    have hquad : (g.out 0).k ⬝ᵥ ((g.out 0).Q.Quu *ᵥ (g.out 0).k) = b * (q * x0) * k := by
      have e : D * k = b * (q * x0) := by rw [hk, ← mul_assoc, mul_inv_cancel₀ h.ne', one_mul]
      rw [gk, guu, ← e]
      simp [dotProduct, mulVec]
      ring
    have hlin : (g.out 0).Q.Qu ⬝ᵥ (g.out 0).k = b * (q * x0) * k := by
      rw [gk, gu]; simp [dotProduct]
    have hpos : 0 ≤ b * (q * x0) * k := by
      rw [hk]
      have : b * (q * x0) * (D⁻¹ * (b * (q * x0))) = D⁻¹ * ((b * (q * x0)) * (b * (q * x0))) := by ring
      rw [this]
      exact mul_nonneg (inv_nonneg.mpr h.le) (mul_self_nonneg _)
    subst hP
    refine full_step hacc hpos _ rfl ?_ rfl gk ?_ rfl hcost ?_ ?_
    · simp [prepare, Kind.feasibilityDriven, calcDiff, start, problemCalc, prob, NlProb.toProb, upd]
    · exact Matrix.mulVec_zero (g.out 0).Kfb
    · simp [prepare, Kind.feasibilityDriven, oracle, expectedImprovement, prob, sumTo, hlin]
    · simp [prepare, Kind.feasibilityDriven, oracle, expectedImprovement, prob, sumTo, hquad]
  obtain ⟨v, hv, v1, v2, v3⟩ := hls
  unfold solve iterLoop iteration
  simp only [hdir, hv, v3]
  have e1 : (1 : ℝ) > cfg.thStepdec := by norm_num [cfg]
  have e2 : ¬ (1 : ℝ) ≤ cfg.thStepinc := by norm_num [cfg]
  have e3 : (decreaseReg cfg v).steplength = 1 := v3
  simp only [e1, if_true, e3, e2, decide_false, Bool.false_and, Bool.false_eq_true, if_false]
  by_cases h5 : ((stopping (decreaseReg cfg v)).wasFeas && decide ((stopping (decreaseReg cfg v)).stop < cfg.thStop)) = true
  · simp only [h5, if_true]; exact ⟨_, rfl, v1, v2⟩
  · simp only [h5, iterLoop]; exact ⟨_, rfl, v1, v2⟩

/-- C132 is not vacuous: one iteration on `x' = x + u` with cost `½u²` and terminal cost `½x²` from `x = 1`. With the
axes of state and control reversed, all costs doubled, 1 added to the terminal cost, and thresholds and regularisation
doubled, it gives the opposite control. -/
example (s s' : NlSt 1 1) :
    ∃ o o', solve (prob 1 1 1 1).toProb cfg (oracle (prob 1 1 1 1) (dlin 1 1 1) Demo.chol .ddp) .ddp 1 1
        (fun _ _ => 1) (fun _ _ => 0) true (some 1) s = some o ∧
      solve (rewritten 2 (fun _ => 0) 1 (-1) (fun _ => -1) (prob 1 1 1 1)).toProb (cfg.scale 2)
        (oracle (rewritten 2 (fun _ => 0) 1 (-1) (fun _ => -1) (prob 1 1 1 1)) (dlin 1 2 2) Demo.chol .ddp) .ddp 1 1
        (fun _ _ => -1) (fun _ _ => 0) true (some 2) s' = some o' ∧
      o.final.us 0 0 = -(1 / 4) ∧ o'.final.us 0 0 = 1 / 4 := by
  obtain ⟨o, h1, h2, -⟩ := one_iteration (b := 1) (r := 1) (q := 1) (x0 := 1) (D := 4) (k := 1 / 4) (by norm_num)
    (by norm_num) (by norm_num) (by norm_num) s
  have hsym : ∀ xs us, SymmHess (prob 1 1 1 1).T (dlin 1 1 1 xs us) := fun xs us => by
    refine ⟨fun t _ => ?_, ?_⟩ <;> (ext i j; obtain rfl : i = j := Subsingleton.elim _ _; rfl)
  have hlin : ∀ xs us : Nat → Fin 1 → ℝ, dlin 1 2 2 (fun t => (-1 : Matrix (Fin 1) (Fin 1) ℝ) *ᵥ xs t)
      (fun t => (-1 : Matrix (Fin 1) (Fin 1) ℝ) *ᵥ us t) = changeLin 2 (-1) (fun _ => -1) (dlin 1 1 1 xs us) := fun xs us => by
    simp only [changeLin, changeDerivs, dlin, neg_mulVec, one_mulVec, transpose_neg, transpose_one, Matrix.neg_mul,
      Matrix.mul_neg, Matrix.one_mul, Matrix.mul_one, neg_neg]
    congr 1
    · funext t; congr 1 <;> (ext; simp [smul_eq_mul])
    · funext i; simp
    · ext; simp
  obtain ⟨o', r1, -, -, r4, -⟩ := C132_nonlinear (lam := 2) two_pos (sig := fun _ => 0) (sigT := 1) (S := -1) (by simp)
    (W := fun _ => -1) (fun _ => by simp) (rewritten_same 2 (fun _ => 0) 1 (by simp) (fun _ => by simp) (prob 1 1 1 1)
      (dlin 1 1 1)).1 one_ne_zero (lin := dlin 1 1 1) (lin' := dlin 1 2 2) hlin
    (fun xs xs' us us' hx hu => by
      have e1 : xs 1 = xs' 1 := hx 1 le_rfl
      have e2 : us 0 = us' 0 := hu 0 one_pos
      simp only [dlin, e1, e2])
    hsym Demo.chol_sound Demo.chol_complete .ddp (by simp [cfg]) 1 one_ne_zero _ _ true (some 1) s s' h1
  refine ⟨o, o', h1, ?_, h2, ?_⟩
  · have e1 : (fun _ : Nat => (-1 : Matrix (Fin 1) (Fin 1) ℝ) *ᵥ (fun _ => (1 : ℝ))) = fun _ _ => -1 := by
      funext t i; simp [neg_mulVec]
    have e2 : (fun _ : Nat => (-1 : Matrix (Fin 1) (Fin 1) ℝ) *ᵥ (fun _ => (0 : ℝ))) = fun _ _ => 0 := by
      funext t i; simp [neg_mulVec]
    rw [e1, e2] at r1
    simpa using r1
  · rw [r4 0 one_pos]; simp [neg_mulVec, h2]

/-- C132 needs the thresholds and the regularisation to be scaled with the costs: with all costs doubled but the same
regularisation, DDP takes another step. -/
theorem C132_cost_scale_counterexample (s s' : NlSt 1 1) :
    (∀ t x u, (prob 1 2 2 1).cost t x u = 2 * (prob 1 1 1 1).cost t x u ∧
      (prob 1 2 2 1).next t x u = (prob 1 1 1 1).next t x u ∧ (prob 1 2 2 1).costT x = 2 * (prob 1 1 1 1).costT x) ∧
    ∃ o o', solve (prob 1 1 1 1).toProb cfg (oracle (prob 1 1 1 1) (dlin 1 1 1) Demo.chol .ddp) .ddp 1 1
        (fun _ _ => 1) (fun _ _ => 0) true (some 1) s = some o ∧
      solve (prob 1 2 2 1).toProb cfg (oracle (prob 1 2 2 1) (dlin 1 2 2) Demo.chol .ddp) .ddp 1 1
        (fun _ _ => 1) (fun _ _ => 0) true (some 1) s' = some o' ∧
      o.final.us 0 0 = -(1 / 4) ∧ o'.final.us 0 0 = -(1 / 3) := by
  refine ⟨fun t x u => ⟨?_, rfl, ?_⟩, ?_⟩
  · simp only [prob]; ring
  · simp only [prob]; ring
  obtain ⟨o, h1, h2, -⟩ := one_iteration (b := 1) (r := 1) (q := 1) (x0 := 1) (D := 4) (k := 1 / 4) (by norm_num)
    (by norm_num) (by norm_num) (by norm_num) s
  obtain ⟨o', h3, h4, -⟩ := one_iteration (b := 1) (r := 2) (q := 2) (x0 := 1) (D := 6) (k := 1 / 3) (by norm_num)
    (by norm_num) (by norm_num) (by norm_num) s'
  exact ⟨o, o', h1, h3, h2, h4⟩

/-- C132 fails for a change of the unit of the state (`x' = 2x`, which is not a rotation): the regularisation is added
to the Hessian of the value function in the coordinates of the state, so that another step is taken. -/
theorem C132_state_unit_counterexample (s s' : NlSt 1 1) :
    (∀ t x u, (prob 2 1 (1 / 4) 2).next t (2 • x) u = 2 • (prob 1 1 1 1).next t x u ∧
      (prob 2 1 (1 / 4) 2).cost t (2 • x) u = (prob 1 1 1 1).cost t x u ∧
      (prob 2 1 (1 / 4) 2).costT (2 • x) = (prob 1 1 1 1).costT x) ∧
    ∃ o o', solve (prob 1 1 1 1).toProb cfg (oracle (prob 1 1 1 1) (dlin 1 1 1) Demo.chol .ddp) .ddp 1 1
        (fun _ _ => 1) (fun _ _ => 0) true (some 1) s = some o ∧
      solve (prob 2 1 (1 / 4) 2).toProb cfg (oracle (prob 2 1 (1 / 4) 2) (dlin 2 1 (1 / 4)) Demo.chol .ddp) .ddp 1 1
        (fun _ _ => 2) (fun _ _ => 0) true (some 1) s' = some o' ∧
      o.final.us 0 0 = -(1 / 4) ∧ o'.final.us 0 0 = -(1 / 7) := by
  refine ⟨fun t x u => ⟨?_, rfl, ?_⟩, ?_⟩
  · funext i; simp [prob]
  · simp [prob]; ring
  obtain ⟨o, h1, h2, -⟩ := one_iteration (b := 1) (r := 1) (q := 1) (x0 := 1) (D := 4) (k := 1 / 4) (by norm_num)
    (by norm_num) (by norm_num) (by norm_num) s
  obtain ⟨o', h3, h4, -⟩ := one_iteration (b := 2) (r := 1) (q := 1 / 4) (x0 := 2) (D := 7) (k := 1 / 7) (by norm_num)
    (by norm_num) (by norm_num) (by norm_num) s'
  exact ⟨o, o', h1, h3, h2, h4⟩

/-- C132 fails for a change of the unit of the controls (`u' = 2u`): the regularisation is added to the Hessian in the
coordinates of the controls. The step corresponds to `u = -1/7`, not to `u = -1/4`. -/
theorem C132_control_unit_counterexample (s s' : NlSt 1 1) :
    (∀ t x u, (prob (1 / 2) (1 / 4) 1 1).next t x (2 • u) = (prob 1 1 1 1).next t x u ∧
      (prob (1 / 2) (1 / 4) 1 1).cost t x (2 • u) = (prob 1 1 1 1).cost t x u ∧
      (prob (1 / 2) (1 / 4) 1 1).costT x = (prob 1 1 1 1).costT x) ∧
    ∃ o o', solve (prob 1 1 1 1).toProb cfg (oracle (prob 1 1 1 1) (dlin 1 1 1) Demo.chol .ddp) .ddp 1 1
        (fun _ _ => 1) (fun _ _ => 0) true (some 1) s = some o ∧
      solve (prob (1 / 2) (1 / 4) 1 1).toProb cfg
        (oracle (prob (1 / 2) (1 / 4) 1 1) (dlin (1 / 2) (1 / 4) 1) Demo.chol .ddp) .ddp 1 1
        (fun _ _ => 1) (fun _ _ => 0) true (some 1) s' = some o' ∧
      o.final.us 0 0 = -(1 / 4) ∧ o'.final.us 0 0 = 2 * -(1 / 7) := by
  refine ⟨fun t x u => ⟨?_, ?_, rfl⟩, ?_⟩
  · funext i; simp [prob]
  · simp [prob]; ring
  obtain ⟨o, h1, h2, -⟩ := one_iteration (b := 1) (r := 1) (q := 1) (x0 := 1) (D := 4) (k := 1 / 4) (by norm_num)
    (by norm_num) (by norm_num) (by norm_num) s
  obtain ⟨o', h3, h4, -⟩ := one_iteration (b := 1 / 2) (r := 1 / 4) (q := 1) (x0 := 1) (D := 7 / 4) (k := 2 / 7)
    (by norm_num) (by norm_num) (by norm_num) (by norm_num) s'
  exact ⟨o, o', h1, h3, h2, by rw [h4]; norm_num⟩

end ReformulateDemo
end Verif.Nl
