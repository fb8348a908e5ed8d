import Verif.Model.Shooting

/-! Specification vocabulary for the shooting problem. Uses only the observable
fields of the problem (what the getters return). -/

namespace Verif.Shooting
variable {K M : Type}

/-- What a user means by "a consistent problem": `T ≥ 1` running models and datas, one state
dimension for all nodes and for `x0`, and each data belongs to the model of its node (it was
created by it or accepted by its `checkData`). -/
structure WellFormed (e : Env M) (p : Problem K M) : Prop where
  pos : 1 ≤ p.T
  nmodels : p.models.length = p.T
  ndatas : p.datas.length = p.T
  x0size : p.x0.length = p.nx
  dims : ∀ m ∈ p.models, e.nx m = p.nx ∧ e.ndx m = p.ndx
  tdims : e.nx p.tmodel = p.nx ∧ e.ndx p.tmodel = p.ndx
  own : ∀ (i : Nat) (m : M) (d : Data M), p.models[i]? = some m → p.datas[i]? = some d →
    d.maker = m ∨ e.checkData m d = true
  town : p.tdata.maker = p.tmodel ∨ e.checkData p.tmodel p.tdata = true

/-- The mutators other than `set_runningModels`. -/
def Op.notSetRunning : Op K M → Prop
  | .setRunningModels _ => False
  | _ => True

/-- The node at position `i` (running nodes, then the terminal node at `i = T`). -/
def node (p : Problem K M) (i : Nat) : Option (M × Data M) :=
  if i = p.T then some (p.tmodel, p.tdata)
  else match p.models[i]?, p.datas[i]? with
    | some m, some d => some (m, d)
    | _, _ => none

/-- Calls that change the structure of the problem (its nodes), when they succeed. -/
def Op.structural : Op K M → Bool
  | .circularAppendData .. | .circularAppend .. | .updateNode .. | .updateModel ..
  | .setTerminalModel .. | .setRunningModels .. => true
  | _ => false

/-- The call is the notification query. -/
def Op.isQuery : Op K M → Bool
  | .isUpdated => true
  | _ => false

/-- In the run of `ops` from `p` at least one structural call returned normally. -/
def someStructuralSuccess (e : Env M) (hw : Nat) (en : Bool) :
    List (Op K M) → Problem K M → Prop
  | [], _ => False
  | op :: ops, p =>
    match op.run e hw en p with
    | .ok _ p' => op.structural = true ∨ someStructuralSuccess e hw en ops p'
    | .throw p' => someStructuralSuccess e hw en ops p'
    | .ub => False

end Verif.Shooting
