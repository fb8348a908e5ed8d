import Verif.Spec.SolverMem
import Verif.Lemmas.SolverMem
import Mathlib.Algebra.Field.Rat
import Mathlib.Algebra.Order.Ring.Rat

/-!
# C127: the arrays of a solver have the dimensions of the problem whenever it iterates
-/

namespace Verif.SolverMem
open Verif Verif.Shooting
set_option linter.unusedSectionVars false

variable {K M : Type}

/-! ### Concrete problems for the examples: nodes of `nx = 3`, `ndx = 2` -/

/-- Models `(nu, nh, ng)`; every model has limits. -/
structure ExModel where
  nu : Nat
  nh : Nat
  ng : Nat
deriving DecidableEq, Repr

def exEnvM : Env ExModel := ⟨fun _ => 3, fun _ => 2, fun m d => d.maker == m⟩
def exDims : Dims ExModel := ⟨ExModel.nu, ExModel.nh, ExModel.ng, ExModel.ng, fun _ => true⟩

/-- Three nodes with `nu = 1, 1, 0`, some constraints, and a terminal node. -/
def exP : Problem Int ExModel :=
  { T := 3, nx := 3, ndx := 2, x0 := [5, 6, 7], models := [⟨1, 0, 2⟩, ⟨1, 1, 0⟩, ⟨0, 0, 0⟩],
    datas := [⟨0, ⟨1, 0, 2⟩⟩, ⟨1, ⟨1, 1, 0⟩⟩, ⟨2, ⟨0, 0, 0⟩⟩], tmodel := ⟨0, 0, 1⟩, tdata := ⟨3, ⟨0, 0, 1⟩⟩,
    nthreads := 1, updated := false, fresh := 4 }

theorem exP_wf : WellFormed exEnvM exP :=
  ((C08_ctor exEnvM 0 [5, 6, 7] [⟨1, 0, 2⟩, ⟨1, 1, 0⟩, ⟨0, 0, 0⟩] ⟨0, 0, 1⟩).1 exP (by decide)).1

/-- Sizes that only depend on the number of nodes and on the states. -/
theorem need_same (d : Dims M) {p p' : Problem K M} (hm : p'.models.length = p.models.length) (hx : p'.nx = p.nx)
    (hdx : p'.ndx = p.ndx) :
    (∀ a, (need d p' a).length = (need d p a).length) ∧ (∀ a ∈ stateArrays, need d p' a = need d p a) := by
  have hc : ∀ v : Nat × Nat, (p'.models.map fun _ => v) = p.models.map fun _ => v := fun v => by
    rw [List.map_const', List.map_const', hm]
  constructor
  · intro a; cases a <;> simp [need, all, running, hm]
  · intro a ha
    simp only [stateArrays, List.mem_cons, List.not_mem_nil, or_false] at ha
    rcases ha with rfl | rfl | rfl | rfl | rfl | rfl | rfl | rfl <;> simp only [need, all, running, hc, hx, hdx]

/-- C127. A solver of the DDP family (DDP, FDDP, BoxDDP, BoxFDDP, Intro) is constructed on a consistent problem. For
every sequence of changes of the problem and of calls of `solve`, accepted or rejected, nothing is accessed out of
range while the arrays are resized, and whenever a `solve` begins its iterations all arrays of the solver have the
dimensions of the problem as it is then.

Partial: the client must not let anybody else ask the problem whether it was updated, and must not change the
dimensions of a model that is in the problem (counterexamples below); `SolverKKT` and the quadratic-program solver
of the box solvers are not resized (below). -/
theorem C127_history_partial (e : Env M) (d : Dims M) (kind : Kind) (hk : kind ≠ .kkt) (hw : Nat) (en : Bool)
    (p : Problem K M) (hwf : WellFormed e p) (acts : List (Act K M)) (hacts : ∀ a ∈ acts, a.plain) :
    ∃ tr, run e kind hw en acts d p (construct e d kind p) = some tr ∧
      tr.length = (acts.filter Act.solves).length ∧
      ∀ s ∈ tr, s.dims = d ∧ WellFormed e s.prob ∧ s.prob.T = p.T ∧ Fits d kind s.prob s.mem := by
  have gen : ∀ (acts : List (Act K M)), (∀ a ∈ acts, a.plain) → ∀ (q : Problem K M) (mem : Mem), WellFormed e q →
      q.T = p.T → Sized kind q d mem → StateFits kind q d mem → (q.updated = false → Fits d kind q mem) →
      ∃ tr, run e kind hw en acts d q mem = some tr ∧
        tr.length = (acts.filter Act.solves).length ∧
        ∀ s ∈ tr, s.dims = d ∧ WellFormed e s.prob ∧ s.prob.T = p.T ∧ Fits d kind s.prob s.mem := by
    intro acts
    induction acts with
    | nil => intro _ q mem _ _ _ _ _; exact ⟨[], rfl, rfl, by simp⟩
    | cons act acts ih =>
      intro ha q mem hq hT hs hst hf
      have ih := ih (fun a h => ha a (by simp [h]))
      have hpl := ha act (by simp)
      cases act with
      | reconfigure d' => exact absurd hpl (by simp [Act.plain])
      | prob op =>
        obtain ⟨q', hrun, hwf', hT', hx', hdx', hu⟩ := step_marks e hw en q hq op hpl.1 hpl.2
        have hm : q'.models.length = q.models.length := by rw [hwf'.nmodels, hq.nmodels, hT']
        obtain ⟨hn1, hn2⟩ := need_same d hm hx' hdx'
        obtain ⟨tr, h1, h2, h3⟩ := ih q' mem hwf' (hT'.trans hT) (fun a h => by rw [hn1 a]; exact hs a h)
          (fun a h h' => by rw [hn2 a h']; exact hst a h h')
          (fun h => by
            rcases hu with hu | ⟨hu, hm1, hm2⟩
            · rw [h] at hu; cases hu
            · have hfits := hf (hu ▸ h)
              intro a ha'
              rw [hfits a ha']
              cases a <;> simp only [need, all, running, hm1, hm2, hx', hdx', hT'])
        refine ⟨tr, ?_, by rw [List.filter_cons_of_neg (by simp [Act.solves])]; exact h2, h3⟩
        rcases hrun with h | h <;> simp only [run, h, h1]
      | solve valid =>
        have href : ∃ q' mem', refresh d kind q mem = some (q', mem') ∧ WellFormed e q' ∧ q'.T = q.T ∧
            Fits d kind q' mem' := by
          rw [refresh, if_neg hk]
          cases hu : q.updated with
          | false => exact ⟨q, mem, by simp, hq, rfl, hf hu⟩
          | true =>
            obtain ⟨m', h1, h2⟩ := resize_fits kind hk d q mem hs hst
            refine ⟨{ q with updated := false }, m', by simp [h1], ?_, rfl, ?_⟩
            · exact ⟨hq.pos, hq.nmodels, hq.ndatas, hq.x0size, hq.dims, hq.tdims, hq.own, hq.town⟩
            · intro a ha'
              rw [h2 a ha']
              cases a <;> rfl
        obtain ⟨q', m', hr, hq', hT', hfit⟩ := href
        have hcand := candidate_fits e d kind q' hq' m' hfit
        cases valid with
        | true =>
          obtain ⟨tr, h1, h2, h3⟩ := ih q' (candidate e d kind q' m') hq' (hT'.trans hT) hcand.sized hcand.state
            (fun _ => hcand)
          refine ⟨⟨d, q', candidate e d kind q' m'⟩ :: tr, by simp [run, hr, h1], by rw [List.filter_cons_of_pos rfl]; simp [h2], ?_⟩
          intro s hs'
          rcases List.mem_cons.mp hs' with rfl | hs'
          · exact ⟨rfl, hq', hT'.trans hT, hcand⟩
          · exact h3 s hs'
        | false =>
          obtain ⟨tr, h1, h2, h3⟩ := ih q' m' hq' (hT'.trans hT) hfit.sized hfit.state (fun _ => hfit)
          exact ⟨tr, by simp [run, hr, h1], by rw [List.filter_cons_of_neg (by simp [Act.solves])]; exact h2, h3⟩
  have hc := construct_fits e d kind p hwf
  exact gen acts hacts p _ hwf rfl hc.sized hc.state (fun _ => hc)

/-- A history with models of other dimensions, a rejected change and a rejected guess. -/
example : ∀ a ∈ ([.solve true, .prob (.updateModel 1 ⟨4, 2, 3⟩), .solve false, .prob (.circularAppend ⟨2, 2, 0⟩),
    .prob (.setX0 [1]), .prob (.setTerminalModel ⟨0, 0, 5⟩), .solve true] : List (Act Int ExModel)), a.plain := by
  intro a ha
  simp only [List.mem_cons, List.not_mem_nil, or_false] at ha
  rcases ha with rfl | rfl | rfl | rfl | rfl | rfl | rfl <;> simp [Act.plain, Op.notSetRunning, Op.isQuery]

/-- Arrays that do not fit. -/
theorem not_fits (d : Dims M) (kind : Kind) (p : Problem K M) (mem : Mem) (a : Arr) (ha : a ∈ arrays kind)
    (h : sizes (mem a) ≠ need d p a) : ¬ Fits d kind p mem := fun hf => h (hf a ha)

/-- Two solvers on one problem: a node is replaced by one with more controls, the other solver starts first and
consumes the notification; this solver iterates with gains and controls of the old dimensions. -/
theorem C127_two_consumers_counterexample :
    ∃ s, run exEnvM .ddp 4 true [.prob (.updateModel 1 ⟨4, 2, 3⟩), .prob .isUpdated, .solve true] exDims exP
        (construct exEnvM exDims .ddp exP) = some [s] ∧
      s.prob.models = [⟨1, 0, 2⟩, ⟨4, 2, 3⟩, ⟨0, 0, 0⟩] ∧
      sizes (s.mem .k) = [(1, 1), (1, 1), (0, 1)] ∧ sizes (s.mem .us) = [(1, 1), (4, 1), (0, 1)] ∧
      ¬ Fits s.dims .ddp s.prob s.mem := by
  refine ⟨_, rfl, rfl, by decide, by decide, not_fits _ _ _ _ .k (by simp [arrays]) (by decide)⟩

/-- `SolverKKT` never resizes: after a node with more controls was put in, `solve` iterates with steps of the old
dimensions, and with a solution vector that is too short for the controls. -/
theorem C127_kkt_counterexample :
    ∃ s, run exEnvM .kkt 4 true [.prob (.updateModel 1 ⟨4, 2, 3⟩), .solve true] exDims exP
        (construct exEnvM exDims .kkt exP) = some [s] ∧
      s.prob.models = [⟨1, 0, 2⟩, ⟨4, 2, 3⟩, ⟨0, 0, 0⟩] ∧
      sizes (s.mem .dus) = [(1, 1), (1, 1), (0, 1)] ∧
      sizes (s.mem .primal) = [(10, 1)] ∧ need exDims s.prob .primal = [(13, 1)] ∧
      ¬ Fits s.dims .kkt s.prob s.mem := by
  refine ⟨_, rfl, rfl, by decide, by decide, by decide, not_fits _ _ _ _ .dus (by simp [arrays]) (by decide)⟩

/-- Constraints added to (or activated in) a model of the problem change its dimensions; the problem is not told, so
`SolverIntro` iterates with the old ones. -/
theorem C127_constraints_counterexample :
    ∃ s, run exEnvM .intro 4 true [.reconfigure { exDims with nh := fun m => m.nh + 1 }, .solve true] exDims exP
        (construct exEnvM exDims .intro exP) = some [s] ∧
      sizes (s.mem .Qz) = [(0, 1), (1, 1), (0, 1)] ∧ need s.dims s.prob .Qz = [(1, 1), (2, 1), (1, 1)] ∧
      ¬ Fits s.dims .intro s.prob s.mem := by
  refine ⟨_, rfl, by decide, by decide, not_fits _ _ _ _ .Qz (by simp [arrays]) (by decide)⟩

/-- After a node was replaced by one with more controls, the feed-forward term of that node has coefficients that
were never written when the iterations begin. The box solvers read it as the warm start of the quadratic program
(box-ddp.cpp L83, box-qp.cpp L98-100). -/
theorem C127_uninit_counterexample :
    ∃ s, run exEnvM .boxDdp 4 true [.prob (.updateModel 1 ⟨4, 2, 3⟩), .solve true] exDims exP
        (construct exEnvM exDims .boxDdp exP) = some [s] ∧
      Fits s.dims .boxDdp s.prob s.mem ∧ s.mem .k = [zeros 1 1, ⟨4, 1, false⟩, zeros 0 1] := by
  refine ⟨_, rfl, ?_, by decide⟩
  obtain ⟨tr, h1, -, h3⟩ := C127_history_partial (K := Int) exEnvM exDims .boxDdp (by decide) 4 true exP exP_wf
    [.prob (.updateModel 1 ⟨4, 2, 3⟩), .solve true]
    (by
      intro a ha
      simp only [List.mem_cons, List.not_mem_nil, or_false] at ha
      rcases ha with rfl | rfl <;> simp [Act.plain, Op.notSetRunning, Op.isQuery])
  have h2 : some tr = _ := h1.symm.trans rfl
  injection h2 with h2
  exact (h3 _ (by rw [h2]; exact List.mem_singleton.mpr rfl)).2.2.2

section box
variable {X DX U L D : Type}
variable {K : Type} [Field K] [LinearOrder K] [AddCommGroup DX] [Module K DX] [AddCommGroup U] [Module K U]

theorem computeDirection_keeps (P : Solve.Prob K X DX U) (O : Solve.Oracle K X DX U L D) (s : Solve.St K X DX U L D) :
    (Solve.computeDirection P O s).2.xs = s.xs ∧ (Solve.computeDirection P O s).2.us = s.us ∧
    (Solve.computeDirection P O s).2.feas = s.feas := by
  unfold Solve.computeDirection
  simp only
  split
  · simp only [Solve.calcDiff]
    split <;> exact ⟨rfl, rfl, rfl⟩
  · exact ⟨rfl, rfl, rfl⟩

/-- The backward pass at a state that is feasible fails. -/
theorem computeDirection_fails (P : Solve.Prob K X DX U) (O : Solve.Oracle K X DX U L D)
    (hO : ∀ s, s.feas = true → (O.backward s).1 = false) (s : Solve.St K X DX U L D) (h : s.feas = true) :
    (Solve.computeDirection P O s).1 = false := by
  unfold Solve.computeDirection
  simp only
  split
  · apply hO
    simp only [Solve.calcDiff]
    split <;> exact h
  · exact hO _ h

theorem dirLoop_fails (P : Solve.Prob K X DX U) (c : Solve.Cfg K) (O : Solve.Oracle K X DX U L D)
    (hO : ∀ s, s.feas = true → (O.backward s).1 = false) (fuel : Nat) (s : Solve.St K X DX U L D) (h : s.feas = true)
    {b : Bool} {v : Solve.St K X DX U L D} (hr : Solve.dirLoop P c O fuel s = some (b, v)) :
    b = false ∧ v.xs = s.xs ∧ v.us = s.us ∧ v.feas = true := by
  induction fuel generalizing s with
  | zero => simp [Solve.dirLoop] at hr
  | succ f ih =>
    obtain ⟨k1, k2, k3⟩ := computeDirection_keeps P O s
    have hf := computeDirection_fails P O hO s h
    unfold Solve.dirLoop at hr
    simp only [hf, Bool.false_eq_true, if_false] at hr
    split at hr
    · simp only [Option.some.injEq, Prod.mk.injEq] at hr
      obtain ⟨rfl, rfl⟩ := hr
      exact ⟨rfl, k1, k2, k3.trans h⟩
    · have ih' := fun h' => ih _ h' hr
      obtain ⟨h1, h2, h3, h4⟩ := ih' (k3.trans h)
      exact ⟨h1, h2.trans k1, h3.trans k2, h4⟩

/-- The quadratic-program solver of BoxDDP and BoxFDDP is built for the number of controls of the first node and
keeps it. If some node with limits has another number of controls, then the backward pass throws at every feasible
candidate, whatever the regularisation: from a feasible guess `solve` gives up without an iteration, returns false
and the candidate is the guess. -/
theorem C127_box_stuck (d : Dims M) (kind : Solve.Kind) (q : Problem K M) (m : M) (hm : m ∈ q.models) (hlim : d.limits m = true) (hpos : 0 < d.nu m)
    (hne : ∀ m0 ∈ q.models.head?, d.nu m ≠ d.nu m0)
    (P : Solve.Prob K X DX U) (c : Solve.Cfg K) (O : Solve.Oracle K X DX U L D)
    -- the backward pass fails if the gains of a node throw
    (hO : ∀ s, (∃ m0 ∈ q.models.head?, ∃ m ∈ q.models, gainsThrow d (d.nu m0) s.feas m = true) →
      (O.backward s).1 = false)
    (fuel maxiter : Nat) (xs : Nat → X) (us : Nat → U) (regInit : Option K) (s : Solve.St K X DX U L D)
    (o : Solve.Outcome K X DX U L D) (hrun : Solve.solve P c O kind fuel maxiter xs us true regInit s = some o) :
    o.ret = false ∧ o.trace = [] ∧ o.final.xs = xs ∧ o.final.us = us := by
  have hO' : ∀ s, s.feas = true → (O.backward s).1 = false := by
    intro s hs
    refine hO s ?_
    have : q.models ≠ [] := fun h => by rw [h] at hm; cases hm
    obtain ⟨m0, ms, hms⟩ := List.exists_cons_of_ne_nil this
    refine ⟨m0, by simp [hms], m, hm, ?_⟩
    simp [gainsThrow, hlim, hpos, hs, hne m0 (by simp [hms])]
  cases maxiter with
  | zero =>
    simp only [Solve.solve, Solve.iterLoop, Option.some.injEq] at hrun
    subst hrun
    exact ⟨rfl, rfl, rfl, rfl⟩
  | succ n =>
    unfold Solve.solve Solve.iterLoop Solve.iteration at hrun
    cases hd : Solve.dirLoop P c O fuel (Solve.start P c xs us true regInit s) with
    | none => rw [hd] at hrun; simp at hrun
    | some r =>
      obtain ⟨b, v⟩ := r
      obtain ⟨rfl, h2, h3, -⟩ := dirLoop_fails P c O hO' fuel _ rfl hd
      rw [hd] at hrun
      simp only [Option.some.injEq] at hrun
      subst hrun
      exact ⟨rfl, rfl, h2, h3⟩

end box

/-- A problem whose second node has two controls and the first one, all with limits; a backward pass that fails
exactly when the gains throw. -/
example : ∃ (q : Problem Rat ExModel) (O : Solve.Oracle Rat Rat Rat Rat Unit Unit), WellFormed exEnvM q ∧
    (⟨2, 0, 0⟩ : ExModel) ∈ q.models ∧ exDims.limits ⟨2, 0, 0⟩ = true ∧
    (∀ m0 ∈ q.models.head?, exDims.nu ⟨2, 0, 0⟩ ≠ exDims.nu m0) ∧
    (∀ s, (∃ m0 ∈ q.models.head?, ∃ m ∈ q.models, gainsThrow exDims (exDims.nu m0) s.feas m = true) →
      (O.backward s).1 = false) ∧ (∃ s, (O.backward s).1 = true) := by
  let q : Problem Rat ExModel :=
    { T := 2, nx := 3, ndx := 2, x0 := [5, 6, 7], models := [⟨1, 0, 0⟩, ⟨2, 0, 0⟩],
      datas := [⟨0, ⟨1, 0, 0⟩⟩, ⟨1, ⟨2, 0, 0⟩⟩], tmodel := ⟨0, 0, 0⟩, tdata := ⟨2, ⟨0, 0, 0⟩⟩,
      nthreads := 1, updated := false, fresh := 3 }
  refine ⟨q, ⟨fun _ => (), fun s => (!s.feas, fun _ => 0, fun _ _ => 0, ()), fun _ => (), fun _ => (0, 0),
    fun _ => false, fun _ => false⟩, ?_, by simp [q], rfl, by simp [q, exDims], ?_, ?_⟩
  · exact ((C08_ctor exEnvM 0 [5, 6, 7] [⟨1, 0, 0⟩, ⟨2, 0, 0⟩] ⟨0, 0, 0⟩).1 q (by decide)).1
  · rintro s ⟨m0, -, m, -, h⟩
    simp only [gainsThrow, Bool.and_eq_true] at h
    simp [h.1.2]
  · exact ⟨⟨fun _ => 0, fun _ => 0, fun _ => 0, fun _ => 0, fun _ => (0, 0), 0, fun _ => 0, fun _ => 0,
      fun _ _ => 0, (), (), false, false, 0, 0, 0, 0, 0, 0, 0, 0, 0, 0, 0, 0, false⟩, rfl⟩

end Verif.SolverMem
