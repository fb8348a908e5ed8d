import Mathlib.Data.List.Basic

/-!
# Model of the attributes that the Python bindings expose

The classes whose attributes are data members (`def_readwrite`, `make_getter`, `make_setter`), and the sizes of code-generated
action models, which are read through `get_...` functions that return the member. The table was extracted from the files
with a script that reads `add_property`, `def_readwrite` and `def_readonly`; attributes bound to other functions are not
modelled, nor are those of base classes joined with those of derived classes. A member is a cell that holds a value.
-/

namespace Verif.PyAttrs

/-- Names of attributes and members. -/
inductive Name where
  | «cost» | «xnext» | «r» | «Fx» | «Fu» | «Lx» | «Lu» | «Lxx» | «Lxu» | «Luu» | «g» | «Gx» | «Gu» | «h» | «Hx»
  | «Hu» | «a_value» | «Ar» | «lb» | «ub» | «beta» | «a» | «tau» | «u» | «dtau_dx» | «dtau_du» | «Mtau»
  | «tau_set» | «squashing» | «actuation» | «du_ds» | «X» | «X3» | «Y1» | «J1» | «H1» | «Y1_T» | «J1_T» | «H1_T»
  | «Y2» | «Y2_T» | «Y3» | «shared» | «residual» | «name» | «constraint» | «active» | «constraints» | «w»
  | «dw_du» | «c» | «activation» | «weight» | «costs» | «da_dx» | «da_du» | «joint» | «xout» | «differential»
  | «control» | «dx» | «Lwu» | «integral» | «ki» | «y» | «ws» | «dki_dx» | «dki_du» | «dyi_dx» | «dyi_du»
  | «dli_dx» | «dli_du» | «ddli_ddx» | «ddli_ddw» | «ddli_ddu» | «ddli_dxdw» | «ddli_dxdu» | «ddli_dwdu» | «Rx»
  | «Ru» | «du» | «data_0» | «data_x» | «data_u» | «dr» | «rp» | «data_rp» | «data_r2p» | «xp» | «Arr_Rx»
  | «Arr_Ru» | «xs» | «xs_» | «us» | «us_» | «fs» | «fs_» | «isFeasible» | «is_feasible_» | «cost_» | «merit»
  | «merit_» | «stop» | «stop_» | «d» | «d_» | «dV» | «dV_» | «dPhi» | «dPhi_» | «dVexp» | «dVexp_» | «dPhiexp»
  | «dPhiexp_» | «dfeas» | «dfeas_» | «feas» | «feas_» | «ffeas» | «ffeas_» | «gfeas» | «gfeas_» | «hfeas»
  | «hfeas_» | «ffeas_try» | «ffeas_try_» | «gfeas_try» | «gfeas_try_» | «hfeas_try» | «hfeas_try_» | «stepLength»
  | «steplength_» | «iter» | «iter_» | «Hff_inv» | «x» | «free_idx» | «clamped_idx» | «pinocchio» | «multibody»
  | «Kinv» | «df_dx» | «df_du» | «contact» | «Minv» | «u_drift» | «pose» | «ctorque» | «type» | «min_thrust»
  | «max_thrust» | «fXj» | «a0» | «da0_dx» | «dtau_dq» | «v» | «a0_local» | «a0_skew» | «a0_world_skew» | «dp»
  | «dp_local» | «f_local» | «da0_local_dx» | «fJf» | «v_partial_dq» | «a_partial_dq» | «a_partial_dv»
  | «a_partial_da» | «oRf» | «rMf» | «jMf» | «Jc» | «dv» | «ddv_dx» | «contacts» | «fext» | «impulses» | «frame»
  | «f» | «dv0_dq» | «dv0_local_dq» | «v_partial_dv» | «impulse» | «vnext» | «dvnext_dx» | «dhd_dq» | «dhd_dv»
  | «rJf» | «rRf» | «dvc_dq» | «ddv_dv» | «pinocchio_internal» | «geometry» | «J» | «np» | «nX» | «nY1» | «nY1_T»
  | «nY2» | «nY2_T» | «nY3» | «nY3_T»
deriving DecidableEq

/-- An attribute: its name, the member its getter reads, the member its setter writes, if it has one. -/
structure Attr where
  name : Name
  get : Name
  set : Option Name
deriving DecidableEq

/-- `def_readwrite`, or getter and setter of the member of the same name. -/
def rw (n : Name) : Attr := ⟨n, n, some n⟩

/-- A getter of the member of the same name. -/
def ro (n : Name) : Attr := ⟨n, n, none⟩

/-- The exposed classes. -/
inductive Cls where
  | actionDataAbstract | activationDataAbstract | activationBounds | activationDataSmooth1Norm
  | actuationDataAbstract | actuationDataSquashing | squashingDataAbstract | actionDataCodeGene
  | constraintDataAbstract | constraintItem | constraintDataManager | controlParametrizationDataAbstract
  | controlParametrizationDataPolyOne | controlParametrizationDataPolyTwoRK | costDataAbstract | costItem
  | costDataSum | dataCollectorActuation | jointDataAbstract | dataCollectorJoint | differentialActionDataAbstract
  | integratedActionDataEuler | integratedActionDataRK | actionDataNumDiff | activationDataNumDiff
  | differentialActionDataNumDiff | residualDataAbstract | solverAbstract_wrap | boxQPSolution
  | differentialActionDataContactFwdDynamics | differentialActionDataContactInvDynamics | residualDataContact
  | differentialActionDataFreeFwdDynamics | differentialActionDataFreeInvDynamics | actionDataImpulseFwdDynamics
  | thrusters | contactDataAbstract | contactData1D | contactData2D | contactData3D | contactData6D | contactItem
  | contactDataMultiple | dataCollectorContact | dataCollectorImpulse | dataCollectorMultibody | forceDataAbstract
  | impulseDataAbstract | impulseData3D | impulseData6D | impulseItem | impulseDataMultiple
  | residualDataCentroidalMomentum | residualDataCoMPosition | residualDataContactControlGrav
  | residualDataContactCoPPosition | residualDataContactForce | residualDataContactFrictionCone
  | residualDataContactWrenchCone | residualDataControlGrav | residualDataFramePlacement
  | residualDataFrameRotation | residualDataFrameTranslation | residualDataFrameVelocity | residualDataImpulseCoM
  | residualDataPairCollision | actionModelCodeGen
deriving DecidableEq

/-- All the classes. -/
def classes : List Cls :=
  [.actionDataAbstract, .activationDataAbstract, .activationBounds, .activationDataSmooth1Norm,
   .actuationDataAbstract, .actuationDataSquashing, .squashingDataAbstract, .actionDataCodeGene,
   .constraintDataAbstract, .constraintItem, .constraintDataManager, .controlParametrizationDataAbstract,
   .controlParametrizationDataPolyOne, .controlParametrizationDataPolyTwoRK, .costDataAbstract, .costItem,
   .costDataSum, .dataCollectorActuation, .jointDataAbstract, .dataCollectorJoint,
   .differentialActionDataAbstract, .integratedActionDataEuler, .integratedActionDataRK, .actionDataNumDiff,
   .activationDataNumDiff, .differentialActionDataNumDiff, .residualDataAbstract, .solverAbstract_wrap,
   .boxQPSolution, .differentialActionDataContactFwdDynamics, .differentialActionDataContactInvDynamics,
   .residualDataContact, .differentialActionDataFreeFwdDynamics, .differentialActionDataFreeInvDynamics,
   .actionDataImpulseFwdDynamics, .thrusters, .contactDataAbstract, .contactData1D, .contactData2D,
   .contactData3D, .contactData6D, .contactItem, .contactDataMultiple, .dataCollectorContact,
   .dataCollectorImpulse, .dataCollectorMultibody, .forceDataAbstract, .impulseDataAbstract, .impulseData3D,
   .impulseData6D, .impulseItem, .impulseDataMultiple, .residualDataCentroidalMomentum, .residualDataCoMPosition,
   .residualDataContactControlGrav, .residualDataContactCoPPosition, .residualDataContactForce,
   .residualDataContactFrictionCone, .residualDataContactWrenchCone, .residualDataControlGrav,
   .residualDataFramePlacement, .residualDataFrameRotation, .residualDataFrameTranslation,
   .residualDataFrameVelocity, .residualDataImpulseCoM, .residualDataPairCollision, .actionModelCodeGen]

/-- The attributes of each class; the file and the lines under /repo/bindings/python/crocoddyl are given with it. -/
def attrs : Cls → List Attr
  -- core/action-base.cpp.in L168-226
  | .actionDataAbstract =>
    [rw .«cost», rw .«xnext», rw .«r», rw .«Fx», rw .«Fu», rw .«Lx», rw .«Lu», rw .«Lxx», rw .«Lxu», rw .«Luu»,
     rw .«g», rw .«Gx», rw .«Gu», rw .«h», rw .«Hx», rw .«Hu»]
  -- core/activation-base.cpp.in L44-49
  | .activationDataAbstract =>
    [rw .«a_value», rw .«Ar»]
  -- core/activations/quadratic-barrier.cpp.in L25-33
  | .activationBounds =>
    [rw .«lb», ⟨.«ub», .«ub», some .«lb»⟩, ro .«beta»]
  -- core/activations/smooth-1norm.cpp.in L45-45
  | .activationDataSmooth1Norm =>
    [ro .«a»]
  -- core/actuation-base.cpp.in L110-132
  | .actuationDataAbstract =>
    [rw .«tau», rw .«u», rw .«dtau_dx», rw .«dtau_du», rw .«Mtau», rw .«tau_set»]
  -- core/actuation/actuation-squashing.cpp.in L74-80
  | .actuationDataSquashing =>
    [rw .«squashing», rw .«actuation»]
  -- core/actuation/squashing-base.cpp.in L59-62
  | .squashingDataAbstract =>
    [rw .«u», rw .«du_ds»]
  -- core/codegen/action.cpp.in L147-182
  | .actionDataCodeGene =>
    [ro .«X», ro .«X3», ro .«Y1», ro .«J1», ro .«H1», ro .«Y1_T», ro .«J1_T», ro .«H1_T», ro .«Y2», ro .«Y2_T»,
     ro .«Y3»]
  -- core/constraint-base.cpp.in L148-172
  | .constraintDataAbstract =>
    [ro .«shared», ro .«residual», rw .«g», rw .«Gx», rw .«Gu», rw .«h», rw .«Hx», rw .«Hu»]
  -- core/constraints/constraint-manager.cpp.in L26-32
  | .constraintItem =>
    [rw .«name», ro .«constraint», rw .«active»]
  -- core/constraints/constraint-manager.cpp.in L229-234
  | .constraintDataManager =>
    [ro .«constraints», ro .«shared»]
  -- core/control-base.cpp.in L95-101
  | .controlParametrizationDataAbstract =>
    [rw .«w», rw .«u», rw .«dw_du»]
  -- core/controls/poly-one.cpp.in L97-97
  | .controlParametrizationDataPolyOne =>
    [ro .«c»]
  -- core/controls/poly-two-rk.cpp.in L98-98
  | .controlParametrizationDataPolyTwoRK =>
    [ro .«c»]
  -- core/cost-base.cpp.in L137-170
  | .costDataAbstract =>
    [ro .«shared», ro .«activation», ro .«residual», rw .«cost», rw .«Lx», rw .«Lu», rw .«Lxx», rw .«Lxu»,
     rw .«Luu»]
  -- core/costs/cost-sum.cpp.in L26-33
  | .costItem =>
    [rw .«name», ro .«cost», rw .«weight», rw .«active»]
  -- core/costs/cost-sum.cpp.in L190-199
  | .costDataSum =>
    [ro .«costs», ro .«shared», rw .«cost»]
  -- core/data/actuation.cpp.in L22-22
  | .dataCollectorActuation =>
    [ro .«actuation»]
  -- core/data/joint.cpp.in L22-44
  | .jointDataAbstract =>
    [rw .«tau», rw .«a», rw .«dtau_dx», rw .«dtau_du», rw .«da_dx», rw .«da_du»]
  -- core/data/joint.cpp.in L58-58
  | .dataCollectorJoint =>
    [ro .«joint»]
  -- core/diff-action-base.cpp.in L136-195
  | .differentialActionDataAbstract =>
    [rw .«cost», rw .«xout», rw .«r», rw .«Fx», rw .«Fu», rw .«Lx», rw .«Lu», rw .«Lxx», rw .«Lxu», rw .«Luu»,
     rw .«g», rw .«Gx», rw .«Gu», rw .«h», rw .«Hx», rw .«Hu»]
  -- core/integrator/euler.cpp.in L97-110
  | .integratedActionDataEuler =>
    [ro .«differential», ro .«control», ro .«dx», ro .«Lwu»]
  -- core/integrator/rk.cpp.in L105-189
  | .integratedActionDataRK =>
    [ro .«differential», ro .«control», ro .«integral», ro .«dx», ro .«ki», ro .«y», ro .«ws», ro .«dki_dx»,
     ro .«dki_du», ro .«dyi_dx», ro .«dyi_du», ro .«dli_dx», ro .«dli_du», ro .«ddli_ddx», ro .«ddli_ddw»,
     ro .«ddli_ddu», ro .«ddli_dxdw», ro .«ddli_dxdu», ro .«ddli_dwdu»]
  -- core/numdiff/action.cpp.in L88-110
  | .actionDataNumDiff =>
    [ro .«Rx», ro .«Ru», ro .«dx», ro .«du», ro .«data_0», ro .«data_x», ro .«data_u»]
  -- core/numdiff/activation.cpp.in L59-75
  | .activationDataNumDiff =>
    [ro .«dr», ro .«rp», ro .«data_0», ro .«data_rp», ro .«data_r2p»]
  -- core/numdiff/diff-action.cpp.in L87-112
  | .differentialActionDataNumDiff =>
    [ro .«Rx», ro .«Ru», ro .«dx», ro .«du», ro .«xp», ro .«data_0», ro .«data_x», ro .«data_u»]
  -- core/residual-base.cpp.in L115-133
  | .residualDataAbstract =>
    [ro .«shared», rw .«r», rw .«Rx», rw .«Ru», ro .«Arr_Rx», ro .«Arr_Ru»]
  -- core/solver-base.cpp.in L179-264
  | .solverAbstract_wrap =>
    [⟨.«xs», .«xs_», some .«xs_»⟩, ⟨.«us», .«us_», some .«us_»⟩, ⟨.«fs», .«fs_», some .«fs_»⟩,
     ⟨.«isFeasible», .«is_feasible_», some .«is_feasible_»⟩, ⟨.«cost», .«cost_», some .«cost_»⟩,
     ⟨.«merit», .«merit_», some .«merit_»⟩, ⟨.«stop», .«stop_», some .«stop_»⟩, ⟨.«d», .«d_», some .«d_»⟩,
     ⟨.«dV», .«dV_», some .«dV_»⟩, ⟨.«dPhi», .«dPhi_», some .«dPhi_»⟩, ⟨.«dVexp», .«dVexp_», some .«dVexp_»⟩,
     ⟨.«dPhiexp», .«dPhiexp_», some .«dPhiexp_»⟩, ⟨.«dfeas», .«dfeas_», some .«dfeas_»⟩,
     ⟨.«feas», .«feas_», some .«feas_»⟩, ⟨.«ffeas», .«ffeas_», some .«ffeas_»⟩,
     ⟨.«gfeas», .«gfeas_», some .«gfeas_»⟩, ⟨.«hfeas», .«hfeas_», some .«hfeas_»⟩,
     ⟨.«ffeas_try», .«ffeas_try_», some .«ffeas_try_»⟩, ⟨.«gfeas_try», .«gfeas_try_», some .«gfeas_try_»⟩,
     ⟨.«hfeas_try», .«hfeas_try_», some .«hfeas_try_»⟩, ⟨.«stepLength», .«steplength_», some .«steplength_»⟩,
     ⟨.«iter», .«iter_», some .«iter_»⟩]
  -- core/solvers/box-qp.cpp.in L34-48
  | .boxQPSolution =>
    [rw .«Hff_inv», rw .«x», rw .«free_idx», rw .«clamped_idx»]
  -- multibody/actions/contact-fwddyn.cpp.in L137-163
  | .differentialActionDataContactFwdDynamics =>
    [ro .«pinocchio», ro .«multibody», ro .«costs», ro .«constraints», ro .«Kinv», ro .«df_dx», ro .«df_du»]
  -- multibody/actions/contact-invdyn.cpp.in L194-207
  | .differentialActionDataContactInvDynamics =>
    [ro .«pinocchio», ro .«multibody», ro .«costs», ro .«constraints»]
  -- multibody/actions/contact-invdyn.cpp.in L335-335
  | .residualDataContact =>
    [ro .«contact»]
  -- multibody/actions/free-fwddyn.cpp.in L99-121
  | .differentialActionDataFreeFwdDynamics =>
    [ro .«pinocchio», ro .«multibody», ro .«costs», ro .«constraints», ro .«Minv», ro .«u_drift»]
  -- multibody/actions/free-invdyn.cpp.in L137-150
  | .differentialActionDataFreeInvDynamics =>
    [ro .«pinocchio», ro .«multibody», ro .«costs», ro .«constraints»]
  -- multibody/actions/impulse-fwddyn.cpp.in L141-163
  | .actionDataImpulseFwdDynamics =>
    [ro .«pinocchio», ro .«multibody», ro .«costs», ro .«constraints», ro .«Kinv», ro .«df_dx»]
  -- multibody/actuations/floating-base-propellers.cpp.in L32-39
  | .thrusters =>
    [rw .«pose», rw .«ctorque», rw .«type», rw .«min_thrust», ⟨.«max_thrust», .«min_thrust», some .«min_thrust»⟩]
  -- multibody/contact-base.cpp.in L87-99
  | .contactDataAbstract =>
    [rw .«fXj», rw .«a0», rw .«da0_dx», rw .«dtau_dq»]
  -- multibody/contacts/contact-1d.cpp.in L87-147
  | .contactData1D =>
    [ro .«v», rw .«a0_local», rw .«a0_skew», rw .«a0_world_skew», rw .«dp», rw .«dp_local», rw .«f_local»,
     rw .«da0_local_dx», ro .«fJf», ro .«v_partial_dq», ro .«a_partial_dq», ro .«a_partial_dv»,
     ro .«a_partial_da», ro .«oRf»]
  -- multibody/contacts/contact-2d.cpp.in L79-109
  | .contactData2D =>
    [ro .«v», ro .«a», ro .«fJf», ro .«v_partial_dq», ro .«a_partial_dq», ro .«a_partial_dv», ro .«a_partial_da»,
     ro .«oRf»]
  -- multibody/contacts/contact-3d.cpp.in L81-127
  | .contactData3D =>
    [ro .«v», rw .«a0_local», rw .«dp», rw .«dp_local», rw .«f_local», rw .«da0_local_dx», ro .«fJf»,
     ro .«v_partial_dq», ro .«a_partial_dq», ro .«a_partial_dv», ro .«a_partial_da»]
  -- multibody/contacts/contact-6d.cpp.in L81-108
  | .contactData6D =>
    [⟨.«rMf», .«jMf», none⟩, ro .«v», ro .«a0_local», ro .«v_partial_dq», ro .«a_partial_dq», ro .«a_partial_dv»,
     ro .«a_partial_da»]
  -- multibody/contacts/multiple-contacts.cpp.in L24-30
  | .contactItem =>
    [rw .«name», ro .«contact», rw .«active»]
  -- multibody/contacts/multiple-contacts.cpp.in L156-188
  | .contactDataMultiple =>
    [rw .«Jc», rw .«a0», rw .«da0_dx», rw .«dv», rw .«ddv_dx», ro .«contacts», rw .«fext»]
  -- multibody/data/contacts.cpp.in L22-22
  | .dataCollectorContact =>
    [ro .«contacts»]
  -- multibody/data/impulses.cpp.in L22-22
  | .dataCollectorImpulse =>
    [ro .«impulses»]
  -- multibody/data/multibody.cpp.in L22-22
  | .dataCollectorMultibody =>
    [ro .«pinocchio»]
  -- multibody/force-base.cpp.in L30-59
  | .forceDataAbstract =>
    [ro .«pinocchio», rw .«frame», rw .«type», rw .«jMf», rw .«Jc», rw .«f», rw .«fext», rw .«df_dx», rw .«df_du»]
  -- multibody/impulse-base.cpp.in L91-100
  | .impulseDataAbstract =>
    [rw .«fXj», rw .«dv0_dq», rw .«dtau_dq»]
  -- multibody/impulses/impulse-3d.cpp.in L58-76
  | .impulseData3D =>
    [rw .«f_local», rw .«dv0_local_dq», ro .«fJf», ro .«v_partial_dq», ro .«v_partial_dv»]
  -- multibody/impulses/impulse-6d.cpp.in L61-74
  | .impulseData6D =>
    [rw .«dv0_local_dq», ro .«fJf», ro .«v_partial_dq», ro .«v_partial_dv»]
  -- multibody/impulses/multiple-impulses.cpp.in L23-29
  | .impulseItem =>
    [rw .«name», ro .«impulse», rw .«active»]
  -- multibody/impulses/multiple-impulses.cpp.in L142-165
  | .impulseDataMultiple =>
    [rw .«Jc», rw .«dv0_dq», rw .«vnext», rw .«dvnext_dx», ro .«impulses», rw .«fext»]
  -- multibody/residuals/centroidal-momentum.cpp.in L87-95
  | .residualDataCentroidalMomentum =>
    [ro .«pinocchio», ro .«dhd_dq», ro .«dhd_dv»]
  -- multibody/residuals/com-position.cpp.in L87-87
  | .residualDataCoMPosition =>
    [ro .«pinocchio»]
  -- multibody/residuals/contact-control-gravity.cpp.in L81-87
  | .residualDataContactControlGrav =>
    [ro .«pinocchio», ro .«actuation», ro .«fext»]
  -- multibody/residuals/contact-cop-position.cpp.in L98-102
  | .residualDataContactCoPPosition =>
    [ro .«pinocchio», rw .«contact»]
  -- multibody/residuals/contact-force.cpp.in L98-98
  | .residualDataContactForce =>
    [rw .«contact»]
  -- multibody/residuals/contact-friction-cone.cpp.in L94-94
  | .residualDataContactFrictionCone =>
    [rw .«contact»]
  -- multibody/residuals/contact-wrench-cone.cpp.in L93-93
  | .residualDataContactWrenchCone =>
    [rw .«contact»]
  -- multibody/residuals/control-gravity.cpp.in L81-83
  | .residualDataControlGrav =>
    [ro .«pinocchio», ro .«actuation»]
  -- multibody/residuals/frame-placement.cpp.in L91-104
  | .residualDataFramePlacement =>
    [ro .«pinocchio», ro .«rMf», ro .«rJf», ro .«fJf»]
  -- multibody/residuals/frame-rotation.cpp.in L91-106
  | .residualDataFrameRotation =>
    [ro .«pinocchio», ro .«r», ro .«rRf», ro .«rJf», ro .«fJf»]
  -- multibody/residuals/frame-translation.cpp.in L90-94
  | .residualDataFrameTranslation =>
    [ro .«pinocchio», ro .«fJf»]
  -- multibody/residuals/frame-velocity.cpp.in L93-93
  | .residualDataFrameVelocity =>
    [ro .«pinocchio»]
  -- multibody/residuals/impulse-com.cpp.in L73-91
  | .residualDataImpulseCoM =>
    [ro .«pinocchio», rw .«impulses», ro .«dvc_dq», ro .«ddv_dv», ro .«pinocchio_internal»]
  -- multibody/residuals/pair-collision.cpp.in L76-87
  | .residualDataPairCollision =>
    [ro .«pinocchio», ro .«geometry», ro .«J», ro .«d»]
  -- core/codegen/action.cpp.in L115-136
  | .actionModelCodeGen =>
    [ro .«np», ro .«nX», ro .«nY1», ⟨.«nY1_T», .«nY1», none⟩, ro .«nY2», ⟨.«nY2_T», .«nY2», none⟩,
     ⟨.«nY3», .«nY2», none⟩, ⟨.«nY3_T», .«nY2», none⟩]

/-- The members of an object. -/
abbrev Obj (V : Type) := Name → V

variable {V : Type}

/-- The attribute of that name. -/
def find (c : Cls) (a : Name) : Option Attr := (attrs c).find? fun r => r.name == a

/-- `obj.a`; `none` for an attribute that the class does not expose. -/
def getattr (c : Cls) (o : Obj V) (a : Name) : Option V := (find c a).map fun r => o r.get

/-- `obj.a = v`; `none` for the `AttributeError` of an attribute without setter. -/
def setattr (c : Cls) (o : Obj V) (a : Name) (v : V) : Option (Obj V) :=
  match find c a with
  | some ⟨_, _, some m⟩ => some fun n => if n = m then v else o n
  | _ => none

/-- A history of assignments; those that raise leave the object as it is. -/
def run (c : Cls) (o : Obj V) (h : List (Name × V)) : Obj V :=
  h.foldl (fun o p => (setattr c o p.1 p.2).getD o) o

end Verif.PyAttrs
