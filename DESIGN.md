# Formal model of hpp-constraints: design

The code under study is humanoid-path-planner/hpp-constraints (C++), read as text in `/repo`.
The model and the theorems are in Lean 4 (`lean/Verif`), the property list in `properties.jsonl`,
the correspondence property -> theorem in `MANIFEST.json`, and the log of mutation experiments
(model edited as a realistic bug would, theorems rebuilt) in `seeded/LOG.jsonl`.

## Trusted base

* Lean 4.33.0 kernel, and the three standard axioms `propext`, `Classical.choice`, `Quot.sound`
  (Mathlib uses them). No other axiom, no `sorry`, no `native_decide`, no `bv_decide`. The axioms
  of each theorem are listed at the end of this file.
* The reading of the C++ code: each definition of the model cites the file and lines it models.
  Nothing here was executed against the C++ code.
* Numbers. Index computations (`size_type`) are unbounded `Nat`/`Int` (no overflow of 64 bit sizes).
  Floating point numbers are modelled either by an ordered field / the reals (algebraic and
  derivative properties; rounding is not modelled), or, when NaN matters, by an explicit
  "number or NaN" type.
* External libraries are parameters of the model, and what is assumed about them is a hypothesis
  of the theorem that uses it:
  * value and Jacobian of user functions: arbitrary functions;
  * pinocchio: placements of the joints, Jacobians of the joints in their own frame (`Sym.Moves`,
    `Pose.KMoves`: the Jacobians describe the derivative of the placements). Kinematic trees and
    forward kinematics are modelled where a property depends on them (C49-C51);
  * Eigen's `JacobiSVD`: contract `Svd.Exact`, proved to be satisfiable for every real matrix
    (`Svd/Exists`, theorem `exists_svd`);
  * qpOASES: contract `QpContract` (the primal solution minimises the objective over non-negative
    vectors), proved to be satisfiable (`Stab/QpExists`, theorem `exists_qpSolver`);
  * hpp-fcl: the pair of nearest points realises the distance and the distance is differentiable
    along the motion (`Dist/Model`);
  * Lie group operations of hpp-pinocchio: laws of the integration and of the difference, proved
    for vector spaces, SO(3) and SE(3) where the code contains them (`Log`, `Conf/Rot`).
* Undefined behaviour (out of bounds, uninitialised read, dereferencing null) is a distinct
  outcome (`Except`/`Option` value) of the model when it is reachable, never a default value.

## What is modelled and how each property is approached

Each area has a file of definitions (`Model`, `Defs`, or a name of the function), files of lemmas,
and a file of property theorems (name ending with `Props`). The theorems are stated with small
specifications that do not use the helpers of the model (sets of indices, membership in a list,
`HasDerivAt`, distances, forces and moments, ...). Next to the theorems, `example`s show that the
hypotheses are met by non trivial data.

| Id | Model | Proof idea |
|----|-------|-----------|
| C01-C05, C08 | `src/matrix-view.cc` function by function on lists of (start,length) | semantics = set of indices; induction on lists |
| C06 | `overlap` | false of the code (containment case): witness + partial theorem on the cases that are right |
| C07, C67 | gather/scatter views, operations between views | induction on selected ranks |
| C09-C12 | `ExplicitConstraintSet::add` with breadth-first loop detection, index bookkeeping, depth-first order | invariant over all histories of `add` |
| C13, C14, C16-C18, C68 | `solve`, right hand sides, satisfaction | induction over the evaluation order |
| C15 | `computeJacobian` | induction over the evaluation order, matrices over a field |
| C19-C22, C69 | `Implicit`, comparison types | list induction |
| C23-C28, C64, C66, C71, C75 | `HierarchicalIterative` bookkeeping | invariant over histories; false ones refuted by witness |
| C29, C30, C32, C72 | solver loops over an oracle of errors, line searches | invariant of the loop, fuel bound |
| C31 | `saturate` | per coordinate case analysis; flag property false of the code when several coordinates share a velocity index |
| C33, C70 | `computeError` with NaN, masked rows | fold |
| C34 | heap model of shared output spaces | witness of interference; independence for the parts copied by value |
| C35, C36 | `isConstraintSatisfied`, `computeDescentDirection` | witness + partial; linear algebra on the decomposition |
| C37-C41, C73, C74 | `BySubstitution` | loop invariants, list algebra, matrices |
| C42 | `svd.hh` | matrix algebra from the contract of the decomposition |
| C43-C46 | function combinators, comparison operators | calculus (`HasDerivAt`), lists |
| C47, C48, C62, C65 | symbolic expressions | induction on expressions with `HasDerivAt`; cache state machine with addresses |
| C49-C52, C78 | relative poses, kinematic trees | group identities, induction on the tree, `HasDerivAt` |
| C53-C55 | convex contact | real arithmetic, convex hulls |
| C83-C85 | contact functions, their Jacobians, contact points | local constancy of the selected pair, `HasDerivAt`, fixed axis of a rotation |
| C86, C87 | explicit contact, output value of explicit relative poses | reduction to C49, C55, C78; rigid motion of surfaces |
| C90, C91 | slope of the line search; the solver on linear constraints | normal equations, `HasDerivAt`; composition of C29, C32 and C36, induction on iterations |
| C92 | bounds of the returned configurations | invariant of the loops, C31 for one saturation |
| C88, C89 | manipulability; affine and constant functions | singular values, characteristic polynomial; `HasDerivAt` |
| C56, C57 | explicit constraints: implicit function, locked joint | product of Lie groups, lists |
| C58, C76, C77 | logarithms of SO(3) and SE(3) and their Jacobians | trigonometry, `HasDerivAt`, ODE of the constant velocity motion |
| C60, C61, C63, C79, C80 | distances, configuration constraint, centers of mass | `HasDerivAt`, cache state machine |
| C59, C81, C82 | matrices of expressions, static stability | `HasDerivAt`, pseudo-inverse of constant rank, non-negative least squares |
| C93, C94 | length of the direction; local convergence on nonlinear constraints | orthogonality invariant of the loop over levels; second order estimates, induction on iterations |
| C95 | Complete iterations of the solver by substitution: `BySub/Newton.lean` puts `BySub/Loop.lean`, `Solve/Descent.lean`, the line searches, the explicit constraint set and `updateJacobian` together. Proved by simulation by the iterations of C94 on the free variables. |
| C96 | `dependsOnRelPoseBetween` of `GenericTransformation`, `ConvexShapeContact`, `explicit_::RelativeTransformation`, `explicit_::ImplicitFunction` (`Verif/RelPose`) on the kinematic tree of C50-C52 and the contact functions of C72-C75; `getJointAtConfigRank`, `parentJoint`, `Joint::index` external. Proved: selection of contact surfaces invariant by a rigid motion of all surfaces, value a function of the relative pose; witnesses for the refutations |
| C97 | `Implicit::doesConstrainRelPoseBetween`, `checkAllRowsActive`, `LockedJoint::doesConstrainRelPoseBetween` (`Verif/RelPose`); constraints as built by C69. Proved: six rows and no inactive row imply full mask, the value determines the relative pose by injectivity of the logarithm (C76_injective); witnesses for the refutations |
| C98 | `ImplBuf` = `Impl` with the sizes of its two buffers; `ImplBuf.save`, `ImplBuf.load` are `serialize`. Induction on the calls made before writing. Refuted for the buffers. |
| C99 | `BS.save`, `BS.load` (with the virtual `add`), `BSObj` = solver with the size of `JeExpanded_`. Simulation: explicit sets equal up to right hand sides and threshold (`ECS.erase`) accept the same constraints. Refuted for right hand sides, threshold and buffer. |
| C100 | `JointFrame` as an object with its cache and `theta_`; `SymbolicFunction` over it with mask and extra columns; derivative from C58 |
| C101 | `initGeomData` over the list of collision pairs, `computeDistances` of pinocchio by its documented behavior, the function built by the constructors; linked with C60 |
| C102 | Verif/Implicit/Equality.lean: objects with their class, memory of functions, `isEqual` with both values of the flag, constructors and copies; symmetry and characterisation by cases on both classes, transitivity from that of functions (C46) |
| C103 | State machine of the setters with the stored flags (Eigen's `isIdentity`, `isZero` up to 1e-12) and active parameters; induction over the sequence of calls; the specification reads the last relevant call. |
| C104 | `projectOnKernel` composes the projection of C42 with the saturation of C31; the specification is the tangent space of implicit and explicit constraints together, and the distance to the target. |
| C105 | The registration of surfaces is modelled one by one with the flags (`Reg.addFloor`, `Reg.addObject`), the loop of `setActiveParameters` is that of C51; the value is that of C65. The specification only uses paths in the kinematic tree. |
| C106 | One function `serialize` per class writes and reads, as in boost; archives are lists of tokens. `Restores` states what is read back in terms of the archive only, with any content before and after. `Verif.Fun.ArchiveEval` evaluates objects from their stored members and compares with the models of the functions. |
| C107 | The Jacobians of the joints are any matrices that satisfy `Robot.Kinematic`, a statement about velocities of rigid bodies; no derivative is involved. The theorem is about the matrices the model of the code writes, and the flags of the model of `computeActiveParams` / `addFloor` / `addObject`. |
| C108 | One level whose data are those of `computeValue`, all variables free, coordinates and variables identified. Unbounded coordinates have no entry and their flag is zero before. Stationary points are specified by the velocities that remain within the bounds (`Inward`), without reference to the flags. |
| C109 | Vectors are lists and indices out of range are `none`. Archives as for C106: the same function writes and reads; the class of the object pointed to is the first element. |
| C110 | Solver of C91 with the levels and the integration of C94_saturated. Invariant: each variable that stops the full step is at the bound towards which the error pushes it and remains there, hence at most n such iterations. Refutation: the two configurations are computed for every exact decomposition. |
| C111 | `Level.evalJac` models computeValue<true> (stacked Jacobian, product by the derivative of the difference, comparison, selection). The error of each constraint is followed along a curve; the comparison is 1-Lipschitz and its square is differentiable. |
| C112 | `ActiveSetDifferentiableFunction` as a transformer of functions that write in a buffer; loop over the intervals |
| C113 | `MatrixBlocks`, `MatrixBlocksRef` and `MatrixBlockView` with their template arguments; simulation of the iterator by that of C07 |
| C114 | the solver of C23-C24 and C111 plugged in the iterations of C91 and C94; equality of the steps, Taylor bound from C111 |
| C115 | the solver of C38-C40, C73 and C74 plugged in the iterations of C95; equality of the steps, derivative of the error along curves |
| C116 | default visitor of C56, differences on SO(2) (argument of a complex number), SO(3) (logarithm of C58), R2xSO2 and SE(2) |
| C117 | `BySubstitution::isSatisfied`, `isConstraintSatisfied`, `errorThreshold` over the models of C19 and C26 |
| C118 | `freeVariables`, the expansion of dq_ (C106), the line searches of C40, saturation, both loops of `solve` |
| C119 | `computeDescentDirection` with `maxRank` and `sigma_`; decomposition exact with sorted singular values |
| C120 | `init` (frame `MinJoint_`), `alignedPositionInJoint`; pose of the joint given |
| C121 | `closestPointToSegment` |
| C122 | `ConvexShapeContact::impl_compute`, `ConvexShapeContactComplement::impl_compute`, `createConstraintAndComplement` |
| C123 | `BySubstitution::oneStep`, line searches reading a stale error |
| C124 | `Assignment<Derived, MatrixBlockView, Functor>::run`, `Assignment<Derived, CwiseBinaryOp<...>, Functor>::run` |
| C125 | error threshold and distance between poses: `computeError`, `logSO3`, generic transformations |
| C126 | error threshold and contact: `impl_compute` of the contact function, `logSO3`, solver by substitution |
| C127 | second call of `solve`: both solvers |
| C128 | the complete iterations (saturation, direction, line search) of two solvers with permuted histories |
| C129 | the complete iterations, restricted to configurations that agree on the variables that are not free |
| C130 | the complete iterations of a solver with a stack of constraints and of a solver with its parts |
| C131 | the line search Backtracking with the complete iterations on linear constraints |
| C132 | the descent direction and the iterations for two formulations of the same constraints |
| C133 | the complete iterations of two solvers built by insertion with different priorities |
| C134 | the iterations of both solvers as functions of the iteration budget and of the threshold |
| C135 | the solvers with saturation, line searches and iterations; the constraints in two units |
| C136 | forward kinematics, relative transformations, centers of mass, distances, contacts, static stability in two states that differ by a rigid displacement |
| C137 | the solver with saturation, line searches and iterations; the same constraints on renumbered variables |
| C138 | checkQPSol and checkStrictComplementarity on the solution used by the Jacobian; derivative of the value |
| C139 | `solve` of both solvers on a transformed configuration, against the transformed result |
| C140 | `solve` of HierarchicalIterative on variables in two systems of units |
| C141 | `rightHandSideFromConfig` followed by `solve`, for both solvers |
| C142 | `solve` with `saturate` against `solve` without bounds; the iterations are compared one by one |
| C143 | solvers built by `add`, with `computeSaturation` and saturation in `integrate`; C114 and C142 combined |
| C144 | solvers by substitution built by `add`, with `computeSaturation` and saturation in `integrate`; C115 and C142 combined |
| C145 | complete iterations of both solvers (`fullOps`) with the flags written by `saturate` and saturation in `integrate`; columns by C31, direction by the range condition on the decomposition |
| C146 | `BS.fullOps` and `HI.fullOps`, `bsSolve` and `solve`: invariants of the explicit set give empty input and output sets, induction on the iterations, then comparison of the specifications of the two loops |
| C147 | `bsSolve` on the complete steps `BS.fullOps`: an inductive predicate gives the variables determined by those that do not move; invariant of the loop in both modes |
| C148 | The finite differences of C45; calculus on the value along one direction, comparison of a function with a bound of its derivative |
| C149 | `staticCompute` and `qpCompute` of C82 and C59; orthogonal projection on the kernel, forces of least norm |
| C150 | `satLevel`, `descend`; lexicographic minimisers (C36), shortest one (C93); two-cycle of `solve` by induction |
| C151 | `descend`, `newtonOps`, `HI.ops`; the guard of the loop implies that the first level is not solved |
| C152 | `descend`; the linearised error is stated by the step without the option |
| C153 | `solve` with `newtonOps`, full steps; induction on the iterations with C152 |
| C154 | `HI.Built` solvers with priorities renumbered by a strictly increasing map; levels without rows are removed by induction on the loop of `computeDescentDirection`, the others correspond by C128 |
| C155 | `solve` over arbitrary numerical steps; the specification by trajectories (`LoopSpec`), shifted by k iterations |
| C156 | `solve` and `bsSolve` over arbitrary numerical steps; the number of successive iterations that did not decrease the error, of `LoopSpec` |

## Status of each property

| Id | Title | Status | Modules of the theorems | What is proved, what is missing |
|--|--|--|--|--|
| C01 | Normalising index intervals keeps exactly the same indices | proved | `Segments/Props` | The whole statement, for all inputs and states of the model. |
| C02 | Number of selected rows equals the number of distinct indices | proved | `Segments/Props` | The whole statement, for all inputs and states of the model. |
| C03 | Interval difference is set difference | proved | `Segments/Props` | The whole statement, for all inputs and states of the model. |
| C04 | Interval union (add, sum) is set union | proved | `Segments/Props` | The whole statement, for all inputs and states of the model. |
| C05 | Splitting and extracting intervals by rank | proved | `Segments/Props` | The whole statement, for all inputs and states of the model. |
| C06 | Overlap test answers whether two index sets share an index | partial | `Segments/Props` | False of the code: an interval strictly inside the second argument is missed (C06_overlap_refuted). C06_overlap_partial characterises the result exactly. |
| C07 | Matrix views read and write exactly the selected coefficients | proved | `MatrixView/Props` | The whole statement, for all inputs and states of the model. |
| C08 | Boolean masks and interval sets are interchangeable | proved | `Segments/Props` | The whole statement, for all inputs and states of the model. |
| C09 | Accepted explicit constraints are always compatible | proved | `ECS/Props` | The whole statement, for all inputs and states of the model. |
| C10 | A constraint is accepted exactly when it is compatible | proved | `ECS/Props` | The whole statement, for all inputs and states of the model. |
| C11 | Input/output variable sets are the exact complement and unions | proved | `ECS/Props` | Outputs and sizes for every reachable set. The input indices (C11_inputs) need each constraint's input intervals to be sorted, which holds for intervals made by RowBlockIndices normalisation; C11_unsorted_inputs_refuted shows add + shrink without sort loses inputs otherwise. |
| C12 | Evaluation order respects dependencies | proved | `ECS/Props` | Order respects dependencies when configuration and velocity indices describe the same joints (AllCoherent). C12_incoherent_diverges: without that, add accepts a set whose ordering does not terminate. |
| C13 | Solving a set of explicit constraints satisfies all of them | proved | `ECS/Props` | The whole statement, for all inputs and states of the model. |
| C14 | Solving does not depend on the insertion order | proved | `ECS/Props` | The whole statement, for all inputs and states of the model. |
| C15 | Jacobian of the explicit solution is the total derivative | proved | `ECS/Deriv`, `ECS/Props` | C15_jacobian: the matrix returned is the one defined by the chain rule (unique by C15_jacobian_unique). Output Jacobians must not depend on the uninitialised value passed as first argument. C15_unsorted_inputs_refuted: input columns are lost with unsorted input intervals. |
| C16 | Right hand side initialised from a configuration makes it a fixed point | proved | `ECS/RhsProps` | The whole statement, for all inputs and states of the model. |
| C17 | Reading back the right hand side of explicit constraints | proved | `ECS/RhsProps` | The whole statement, for all inputs and states of the model. |
| C18 | Satisfaction test of explicit constraints | proved | `ECS/RhsProps` | Strict comparison: a zero threshold is never met (C18_zero_threshold_refuted). |
| C19 | Only equality components carry a right hand side | proved | `Implicit/Props` | For a constraint (Implicit). Setting a right hand side from a vector is done by the solvers, see C17, C24. For a stack of constraints the parameter size stays zero (C19_set_parameter_size_refuted). |
| C20 | Inequality errors vanish exactly inside the admissible region | proved | `Implicit/Props` | The whole statement, for all inputs and states of the model. |
| C21 | Comparison type expressions build the announced vector | proved | `Implicit/Props` | The whole statement, for all inputs and states of the model. |
| C22 | Time varying right hand side is validated | proved | `Implicit/Props` | Without right hand side function, rightHandSideAt returns the buffer last computed (C22_removed). |
| C23 | Rows of stacked constraints never collide | proved | `HI/Props` | The whole statement, for all inputs and states of the model. |
| C24 | Right hand side of one constraint: set, get, and no interference | proved | `HI/Props` | The whole statement, for all inputs and states of the model. |
| C25 | Initialising the right hand side from a configuration makes it satisfy the equality constraints | partial | `HI/Props` | Exact right hand side for all groups (C25_from_config); error zero when all components are Equality (C25_equality_satisfied) or on vector spaces (C25_vector_space). False for mixed comparison types on a non commutative group (C25_mixed_refuted). |
| C26 | Stacked right hand side vector round-trip | partial | `HI/Props` | Holds when all the constraints have the same priority (C26_one_level_partial). With two non empty levels the call is always out of range (C26_two_levels_refuted). |
| C27 | Adding a constraint keeps the right hand sides already set | partial | `HI/Props` | False: every addition resets all the right hand sides to neutral (C27_add_resets, C27_refuted). C27_neutral_kept_partial: exactly the neutral ones are kept. |
| C28 | A constraint can be inserted only once | proved | `HI/Props` | merge is proved for solvers whose common functions have equal constraints; otherwise it throws in the middle (C28_merge_refuted). |
| C29 | SUCCESS means the constraints are satisfied | partial | `Solve/Props` | Proved for totally ordered numbers, for all behaviours of the numerical steps. False for errors that are not numbers: C29_nan_refuted. |
| C30 | The iterative solvers terminate within the iteration budget | partial | `BySub/LoopProps`, `Solve/LineSearchProps`, `Solve/Props` | The number of iterations of solve and of the backtracking line search is bounded. The backtracking loop does not end for tau >= 1 (public parameter): C30_backtracking_refuted. The loop of the solver by substitution is bounded too (C30_by_substitution). |
| C31 | Saturated configurations stay within bounds | partial | `Solve/SaturationProps` | Coordinates: proved for all joint layouts. Flags: proved when no velocity index is shared; false for joints with more coordinates than degrees of freedom: C31_device_flags_refuted. |
| C32 | Line search step lengths are valid | proved | `Solve/LineSearchProps` | The whole statement, for all inputs and states of the model. |
| C33 | The reported error is the worst mandatory level | partial | `HI/SatProps` | Proved on ordered groups. False for errors that are not numbers (C33_nan_refuted); undefined for an empty solver with optional last level (C33_empty_optional). |
| C34 | A copied solver is independent of its original | partial | `Solve/AliasProps` | The original is independent of its copies. A copy is independent if it is updated before the original is modified; otherwise false: C34_copy_refuted. |
| C35 | Per-constraint and global satisfaction agree | partial | `HI/SatProps` | Holds without inequality and optional level (C35_agree_partial); false with (C35_inequality_refuted, C35_optional_refuted). |
| C36 | The descent direction depends only on the current values | partial | `Solve/DescentProps` | Independent of the past if the first level has rows or there is one level; false otherwise: C36_stale_refuted, C36_all_empty_refuted. The singular value decomposition is assumed exact (SvdOps.Exact, shown to be satisfiable) where optimality is concerned. |
| C37 | Solving by substitution: meaning of the returned status | partial | `BySub/LoopLink`, `BySub/LoopProps` | Proved for all behaviours of the numerical steps: statuses, explicit constraints, SUCCESS. C37_isSatisfied: for every solver built by insertion of constraints, SUCCESS implies that the explicit constraints hold, that each mandatory implicit constraint is below the threshold, and that isSatisfied returns true at the returned configuration. INFEASIBLE may be returned although the constraints are satisfied: C37_infeasible_refuted, C37_infeasible_step_refuted. With optimize, an unsatisfied configuration may be returned although a satisfying one was visited: C37_optimize_refuted. |
| C38 | Stacked right hand side of the substitution solver round-trip | partial | `BySub/Props` | rightHandSide(vector) gives the head of the vector to both parts (C38_head): false as soon as the explicit part of the vector is not its head (C38_head_refuted, C38_refuted); C38_round_trip_partial otherwise. Constraint by constraint: C38_one_implicit, C38_one_explicit_partial; false if a function is in both parts (C38_hidden_refuted). |
| C39 | Extracting sub-solvers does not modify the original | partial | `BySub/ExtractProps`, `ECS/ReplaceProps` | Holds for HierarchicalIterative (C39_hierarchical). For BySubstitution the extracted solver is right (C39_by_substitution_partial) but explicit_.replace is called on the original, whose explicit set then shares the constraints of the extracted solver: C39_explicit_moved_refuted, C39_second_refuted, C39_write_refuted. |
| C40 | No constraint is lost when added to the substitution solver | partial | `BySub/Props` | Each constraint accepted is in exactly one of the two parts, and satisfaction means satisfaction of all of them (C40_partition, C40_enforced). A constraint that differs from one of the solver by its mask only is refused (C40_equal), hence not enforced: C40_mask_refuted. |
| C41 | Announced error size matches the error vector | partial | `BySub/Props` | The error vector has one row for each row of each constraint (C41_vector); errorSize counts output variables instead for the explicit ones (C41_size_partial, C41_refuted). |
| C42 | Projection on the kernel of the constraints | proved | `Svd/Props` | Exact arithmetic, exact decomposition. The flag computeFullV with a thin decomposition gives a wrong projector: C42_thin_refuted. |
| C43 | Function on an interval: value and Jacobian are consistent | partial | `Fun/ExtractedProps` | Value, domain, exceptions, composition; Jacobian for reversed intervals. For intervals in increasing order the Jacobian is evaluated at s - t1: C43_jacobian_partial, C43_jacobian_refuted. |
| C44 | Functions of a subset of the variables have a well defined Jacobian | partial | `Fun/SubsetProps` | In a buffer that is zero out of the selected columns, and for a difference on intervals that do not overlap. Otherwise false: C44_subset_refuted, C44_difference_overlap_refuted, C44_difference_active_refuted. Output spaces: vector spaces. |
| C45 | Finite difference Jacobians are exact for affine functions | proved | `Fun/FiniteDiffProps` | Exact arithmetic. Stronger than the statement: forward differences exact along each direction where the function is affine, central ones where it is quadratic. |
| C46 | Function equality is a congruence | partial | `Fun/EqualityProps` | All the classes that define isEqual. Symmetric; reflexive but for constant functions and some contacts; transitive but for constant functions; congruent for the classes that compare all their members, and for the others when the members that are not compared are the same (C46_rest_partial); independent of earlier evaluations but for sets, manipulabilities and distances between bodies. Refuted for constant and extracted functions, transformations, relative center of mass, contacts and their complements; the comparison of sets, manipulabilities and distances depends on the last evaluation. |
| C47 | Jacobians of symbolic expressions are derivatives | partial | `Sym/Props` | C47_derivative_partial: along any motion (real analysis, HasDerivAt) the Jacobian computed by the cached algorithm times the velocity is the derivative of the value it computes, for all expression graphs (shared nodes allowed) without cross product of an off-centre point or of the centre of mass and without multiplication by a non transposed rotation; C47_scalar_product_partial the same for scalar products. The three exclusions are bugs of the code, each refuted with a motion: C47_rotation_refuted, C47_cross_refuted, C47_com_refuted. |
| C48 | Cached symbolic values are always those of the current configuration | partial | `Sym/Props` | C48_order_partial: for any history of calls on any expressions sharing nodes, after invalidate and any sequence of calls the value, cross matrix and Jacobian are those of a fresh expression (same class as C47). C48_value_partial: value alone for all expressions except com as left operand of a cross product. Refuted in general: C48_jacobian_first_refuted, C48_cross_overwritten_refuted, C48_com_refuted, C48_uninitialised_refuted. |
| C49 | Explicit and implicit relative pose constraints agree | partial | `Pose/RelProps` | C49_round_trip / C49_round_trip_explicit: both round trips between right hand sides, as poses; C49_solution: for every kinematic tree, after the outputs are set to the computed pose the relative pose of the frames is the right hand side. Eigen's conversions between quaternion and matrix are modelled and proved inverse of each other on rotations; exponential and logarithm of SE(3) are external with their law (exp(log M)=M). As vectors the round trip is not the identity (C49_vector_refuted: a quaternion and its opposite). |
| C50 | Explicit relative pose: input variables are those that matter | proved | `Pose/RelProps` | C50_inputs, C50_path, C50_rel_pose_variables: exact set of input variables in every tree; C50_value: value independent of everything but the argument; C50_outputs: outputs are never inputs when joint 2 is not an ancestor of joint 1; C50_descendant_refuted: they are otherwise, nothing checks this. |
| C51 | Active variables of pose functions | proved | `Pose/Props`, `RelPose/Constrain` | Exact set for configuration and velocity variables in every tree; value unchanged when other variables change. |
| C52 | Pose functions: masked value and masked Jacobian correspond | partial | `Pose/Props`, `Pose/Small` | C52_value, C52_jacobian, C52_jacobian_so3: all masks and all shortcuts of the code (identity frames, zero offsets, null joints, full blocks), any content of temporary matrices. C52_defined: undefined exactly when both joints are null. C52_jacobian_small: for angles of relative rotation less than 1e-6, within 1e-6 times the angular velocity of the derivative; equality is false there (C52_small_refuted). Missing: the angle 1e-6 and pi, where the value is not differentiable. |
| C53 | Convex polygon: inside test and signed distance agree | partial | `Contact/ShapeProps` | C53_inside_iff_distance for any list of three or more points; C53_inside_polygon: inside test = convex hull; C53_distance: signed distance = distance to the boundary in the plane; C53_reverse_partial: polygons. C53_reverse_refuted: shapes of one and two points keep their normal. Convexity is a hypothesis: the code only asserts that successive edges turn left. |
| C54 | Contact selection picks the best pair | partial | `Contact/LineProps`, `Contact/Props` | C54_minimal, C54_defined: the minimised quantity is proved to be the squared distance to the floor polygon in the world frame. C54_line: intersection of any line with the plane of the surface, isInside with a line. C54_contact_partial: in contact iff the projection is in the floor, outline excluded; C54_outline_refuted: on the outline the projection is in the floor but the pair is not in contact. |
| C55 | Contact right hand side identifies the selected surfaces | partial | `Contact/Props` | C55_round_trip_partial, C55_selected_partial (the radius computed by the code is proved large enough for selected surfaces). Missing: C55_margin_refuted: a non zero normal margin is added and never subtracted; C55_point_refuted: point contacts lose the orientation. |
| C56 | Implicit formulation of an explicit constraint | partial | `Explicit/ImplicitFnProps` | Zero iff outputs = f(inputs): proved for every product of Lie groups (law of the difference per factor assumed, proved for vector spaces). Jacobian: proved to be the derivative for one factor (vector space, SE(3), R3xSO(3) with at least one input; derivative of the logarithms is a hypothesis). Refuted with two factors or more: rows written out of bounds. |
| C57 | A locked joint locks exactly its joint | partial | `Locked/Props` | C57_joint_partial, C57_in_set, C57_accepted: constructor from a joint and a value, any joint space, any robot, any set of explicit constraints. C57_index_refuted, C57_extra_refuted: the two other constructors pass the output intervals in the place of the velocity input intervals; the constraint computes nothing, and adding it to a set reads an empty vector (also the index inside the joint is not added to the ranks). |
| C58 | Jlog is the inverse of the right Jacobian of the exponential | partial | `Log/Props`, `Log/Small` | C58_inverse: two-sided inverse for every norm in [1e-6, pi); C58_right_jacobian: the closed form used as specification is the derivative of the exponential; C58_derivative: JlogSO3 is the derivative of logSO3 along any motion, for angles in (1e-6, pi) and at the identity; C58_near_zero, C58_derivative_small: limit at zero and, below the threshold 1e-6 where the code returns the identity, within 1e-6 of the exact inverse and of the exact derivative. Equality below 1e-6 is false: C58_inverse_small_refuted, C58_small_refuted. Exact real arithmetic. |
| C59 | Static stability by quadratic programming: value and Jacobian | partial | `Stab/QpDiff`, `Stab/QpProps` | C59_value, C59_zero_iff: under the contract of qpOASES (existence of a solver that meets it is proved), the value is the minimal squared residual wrench over non-negative forces, zero iff non-negative forces balance gravity. C59_columns: both constructors. C59_differentiable_partial: right after the value, twice the Jacobian is the derivative of the value, which exists where the optimal forces are unique; C59_unique: they are if the wrenches are independent. C59_derivative_partial: same wherever the derivative exists. C59_kink_refuted: otherwise the value may have no derivative. C59_half_refuted: the Jacobian is half the derivative. C59_history_refuted: impl_jacobian uses the matrix of the last value call. |
| C60 | Distance between points: value and Jacobian | partial | `Dist/Props` | C60_value_partial, C60_derivative_partial: points of two joints, any history such that the Jacobian is not taken from a stale robot. C60_bodies_value, C60_bodies_derivative_partial: distance between bodies (contract of hpp-fcl as hypothesis). C60_world_refuted: with a second point fixed in the world the second point is ignored. C60_history_refuted: the Jacobian reads the shared robot after a cache hit. |
| C61 | Configuration constraint: gradient of the weighted squared distance | partial | `Conf/Props` | C61_value, C61_mask; C61_derivative_partial, C61_vector_space, C61_rotation: Jacobian is the derivative on vector spaces for any weights, and on rotation groups for equal weights. C61_weights_refuted: with different weights inside a rotation, the Jacobian of the code is not the derivative. |
| C62 | Stacked functions | proved | `Implicit/Props` | The whole statement, for all inputs and states of the model. |
| C63 | Relative centre of mass Jacobian | proved | `Com/RelativeProps` | C63_value, C63_derivative. |
| C64 | Sub-manifold inclusion and level extraction | partial | `HI/Props`, `HI/SatProps` | definesSubmanifoldOf compares functions only (C64_submanifold_iff); C64_inclusion_refuted: comparison types and right hand sides are ignored. C64_satisfied_partial: the inclusion of solutions when they agree. |
| C65 | Symbolic functions with a mask | partial | `Sym/Props` | C65_selected_partial: the selected components are written in order at the beginning of the output; C65_full: default mask. The output size ignores the mask: C65_size_refuted. |
| C66 | Saved and reloaded solver | partial | `HI/Props` | Constraints, priorities, ranks, thresholds are restored (C66_save_load_partial); right hand sides and free variables are not (C66_rhs_lost_refuted). |
| C67 | Element-wise operations on views | partial | `MatrixView/Props` | False for two views (C67_view_op_view_refuted: the right operand is read at the indices of the left one, impl/matrix-view-operation.hh:218); holds when both views use the same intervals (C67_view_op_view_partial) and between a view and a matrix (C67_matrix_op_view, C67_view_op_matrix). |
| C68 | Dependency matrix of explicit constraints | proved | `ECS/Props` | The whole statement, for all inputs and states of the model. |
| C69 | Masked components are ignored, and only them | proved | `Implicit/Props` | The whole statement, for all inputs and states of the model. |
| C70 | Masked rows do not count in the error of the solver | partial | `HI/SatProps` | Holds but for inequalities with positive threshold (C70_masked_row_partial), for which it is false (C70_masked_inequality_refuted). |
| C71 | Active variables of a solver | partial | `HI/ActiveProps` | Holds when each level has a constraint (C71_active_partial); a level without constraint makes the call combine arrays of different sizes (C71_empty_level_refuted). |
| C72 | Variables at a bound that are pushed outwards are blocked | proved | `Solve/DescentProps` | The whole statement, for all inputs and states of the model. |
| C73 | Rows kept in the reduced Jacobian of the solver by substitution | partial | `BySub/JacobianProps` | Exact if the free variables are the variables that are not outputs (C73_rows); otherwise rows may be kept although their row in the reduced Jacobian is zero: C73_locked_refuted. |
| C74 | Reduced Jacobian of the solver by substitution | partial | `BySub/ErrorDeriv`, `BySub/JacobianProps` | C74_reduced, C74_derivative (the rows of the reduced Jacobian are the derivatives of the rows of the error along the motions where the explicit constraints hold, unless an inequality is exactly at its limit), C74_squared_norm (no exception), when the free variables agree with the explicit constraints; sizes do not match otherwise: C74_locked_refuted. |
| C75 | Variables handled by the iterative part | partial | `BySub/JacobianProps` | True when each level has a constraint (C75_implicitDof_partial); undefined as soon as a level has none (C75_empty_level_refuted, C71_empty_level_refuted). |
| C76 | Logarithms invert the exponential | partial | `Log/Inject`, `Log/Props`, `Log/ScrewSmall` | Constant velocity motion reaches the argument in unit time: rotations of angle in (1e-6, pi), transforms of angle in [1e-2, pi). C76_screw_small: for transforms of angle in [0, 1e-2), where the code uses truncated series, the motion ends within 1e-18 of the rotation (exactly at it above 1e-6) and within 1e-15 times the size of the translation. C76_small_rotation: below 1e-6 the rotation vector is accurate to 1e-18. C76_injective: two rotations of angle less than pi with the same logarithm are equal. Refuted for an angle of exactly pi (C76_half_turn_refuted: signs of the components). |
| C77 | Jacobian of the logarithm on SE(3) | partial | `Log/Props`, `Log/Small`, `Log/SmallSE3` | Exact derivative for angles in (1e-6, pi) other than 1e-2 (there the code switches to truncated series) and at the identity rotation. Used to discharge the hypothesis of C56. C77_derivative_small: for angles less than 1e-6, each coefficient is within 1e-6 (1 + 2 P) of the derivative, where P bounds the coordinates of the translation; equality is false there, because JlogSO3 is an approximation: C77_small_refuted. |
| C78 | Jacobian of the explicit relative pose | partial | `Pose/RelProps` | C78_no_parent_partial: true when the parent of the freeflyer joint is the universe. C78_refuted: false with a parent joint (angular part has the wrong sign). |
| C79 | Center of mass between the feet: values, Jacobian, history | partial | `Com/BetweenProps` | C79_value, C79_between; C79_derivative_partial: columns of the joints. Missing: C79_extra_refuted: the columns of the extra degrees of freedom are left as the caller passed them. |
| C80 | Active parameters of the configuration constraint | proved | `Conf/Props` | C80_active, C80_value. |
| C81 | Matrices of expressions: value, Jacobian products, pseudo-inverse | proved | `Stab/MoeProps` | C81_value, C81_pinv, C81_jacobian_times, C81_jacobian_transpose_times, C81_pinv_derivative. The decomposition is a parameter with an exactness contract; existence of a decomposition of every matrix is proved (Verif/Svd/Exists.lean). |
| C82 | Static stability: residual wrench, minimality and Jacobian | proved | `Stab/StaticProps` | C82_value, C82_minimal, C82_zero_iff, C82_equilibrium, C82_derivative (rank locally constant; no component of the least-squares forces equal to 0 or to minus the precision of isZero). |
| C83 | Jacobians of the contact functions | partial | `Contact/FuncProps` | C83_contact_partial, C83_complement_partial, C83_hold_partial: contacts of points and polygons, unique nearest pair, projection off the outline, rotation where the computed logarithm is exact. C83_line_refuted: for a segment the value is defined and the Jacobian throws. |
| C84 | Configurations that satisfy a contact constraint | partial | `Contact/FuncPoints`, `Contact/FuncZero` | C84_defined, C84_plane, C84_point: exact characterisation for polygons and points. C84_line_partial: for a segment a direction fixed to the joint and orthogonal to the segment must be opposite to the normal of the floor. C84_line_refuted: a segment lying in the floor is not in contact. |
| C85 | Contact points | partial | `Contact/FuncPoints` | C85_points: exact content of the result. C85_far_refuted: since floors are reversed by the constructor the sign of the distance is wrong, a surface arbitrarily far above the floor is reported as contact. C85_points shows that what is tested is height > -margin. |
| C86 | Explicit contact: solution, held pose, inputs and Jacobian | partial | `Contact/ExplicitMore`, `Contact/ExplicitProps` | C86_check, C86_inputs: exact conditions of construction and inputs. C86_output: the output value realises any right hand side. C86_hold_partial: polygons keep their pose relative to the floor (computed logarithm exact). C86_satisfied_partial, C86_same_joint_partial: the implicit constraint is satisfied if the pair is still the nearest one, in particular if all floors move together. C86_jacobian_partial: all floors on the same joint, object attached to no joint. C86_satisfied_refuted, C86_jacobian_refuted: floors on different joints. C86_point, C86_point_refuted: the orientation of a point object is not kept. C86_parent_refuted: a freeflyer attached to another joint is accepted. |
| C87 | Jacobian of the output value of the explicit relative pose | partial | `Pose/RelOut` | C87_jacobian: equivalent to the property of the Jacobian of the explicit function (C78). C87_no_parent_partial: holds if joint 2 is attached to no joint. C87_refuted: false otherwise. |
| C88 | Manipulability | partial | `Fun/ManipProps` | C88_value, C88_zero_iff (no singular value below the smallest positive normal number), C88_singular, C88_unique, C88_jacobian. C88_tall_refuted: with more rows than active columns the determinant of J J^T is zero and the value may be zero. The decomposition is a parameter with a contract, shown to be satisfiable. |
| C89 | Affine and constant functions, identity | partial | `Fun/Affine` | C89_affine, C89_active, C89_value, C89_identity, C89_identity_active, C89_constant. C89_constant_refuted: a constant function declares all its parameters active. |
| C90 | Slope of the error along the descent direction | partial | `Solve/SlopeProps` | C90_derivative: what is computed, for every stack of levels. C90_one_level: never positive, zero exactly at critical points. C90_first_level, C90_feasible: several levels. C90_armijo: with one constraint small steps are accepted. C90_levels_refuted: positive with two levels that conflict. C90_max_refuted: the line search compares the maximum over the constraints, which every step may increase although the slope is negative. |
| C91 | Linear constraints are solved | partial | `Solve/NewtonProps` | C91_converges (any line search with step lengths in [bmin, 1]), C91_line_searches (the four line searches of the library), C91_constant, C91_constant_iff, C91_success (meaning of SUCCESS for each constraint). C91_infeasible_refuted: INFEASIBLE is returned if a solution is too close. C91_level_by_level_refuted: with solveLevelByLevel ERROR_INCREASED is returned for a solvable linear system. Saturation not included (see C110). |
| C92 | Configurations returned by the solvers are within the bounds | partial | `Solve/BoundsProps` | C92_bounds, C92_line_searches, C92_device: HierarchicalIterative::solve, any status. C92_by_substitution_partial: variables that are not outputs of explicit constraints. C92_output_refuted: outputs of explicit constraints are computed after the saturation and may be out of bounds with status SUCCESS. C92_initial_refuted: an initial configuration out of the bounds is returned as it is if no iteration is needed. |
| C93 | The descent direction is the shortest one and does not depend on the decomposition | partial | `Solve/ShortestProps` | C93_shortest_partial, C93_unique_partial: first level not empty, or one level. C93_decomposition: singular value decompositions with full V meet all that is assumed of the decomposition in C36, C90, C91, C94. C93_empty_first_refuted: if the first level is empty the direction contains what a previous iteration left. |
| C94 | Local convergence on nonlinear constraints | proved | `Solve/LocalProps`, `Solve/LocalSat` | C94_converges, C94_success, C94_quadratic; C94_regular: the hypotheses follow from differentiability with Lipschitz Jacobians on vector spaces. C94_saturated_regular, C94_saturated: the same with computeSaturation and saturation after integration (vector spaces, ball inside the bounds, steps may leave them). C94_global_refuted: convergence is only local. Mandatory levels only (lastIsOptional false). |
| C95 | Convergence of the solver by substitution | proved | `BySub/NewtonEcs`, `BySub/NewtonProps` | C95_refines (any space parametrised by the free variables), C95_linear, C95_converges, C95_success, C95_line_searches; vector spaces with the explicit constraint set and the reduced Jacobian of the code: C95_parametrises, C95_reduced_derivative, C95_solver. Explicit constraints defined everywhere, saturation inactive, mandatory levels in C95_solver. |
| C96 | dependsOnRelPoseBetween returns the joints whose relative pose determines the value | partial | `RelPose/Props` | Proved for generic transformations and contact functions. Refuted for explicit_::RelativeTransformation (its value depends on joint1 and on the parent of joint2: C96_explicit_refuted, C96_explicit_partial) and for the implicit form of constant functions whose output interval starts inside the variables of a joint (C96_shifted_refuted). |
| C97 | doesConstrainRelPoseBetween returns only joints whose relative pose is fixed | partial | `RelPose/Constrain`, `RelPose/Examples` | Proved when all the rows are compared with Equality or EqualToZero: transformations with vector values for angles less than pi (uses C76_injective), transformations in R^3 x SO(3) for all angles, constant explicit constraints on all the variables of a joint, locked joints. Refuted: comparison types are not looked at (C97_inequality_refuted), half turns (C97_half_turn_refuted), output interval not aligned with a joint (C97_shifted_refuted), converse (C97_incomplete_refuted: only dimension 6). |
| C98 | A constraint survives a round trip through an archive | partial | `Implicit/ArchiveProps` | Members that are written or recomputed are restored for every constraint (C98_constraint_partial). False for the two evaluation buffers output_ and logOutput_, neither written nor resized: C98_constraint_refuted shows that rightHandSideFromConfig and rightHandSideAt write out of bounds after reading, for every constraint with a non empty output; C98_fresh_defined shows that they are defined before. The functions are taken to be restored as they were. |
| C99 | A solver by substitution survives a round trip through an archive | partial | `BySub/ArchiveProps` | The structure is restored (C99_round_trip_partial, by a simulation between the original history and the insertions made by load; C99_free). False for the rest: right hand sides (a TODO in the code), threshold of the explicit part, which is the machine precision after reading (C99_values_refuted, C99_satisfaction_refuted), and the matrix JeExpanded_, left empty, in which the first iteration writes (C99_jacobian_refuted; C99_jacobian_fresh for a constructed solver). The constraints themselves are taken to be restored, see C98. |
| C100 | Pose of a joint as a symbolic expression | partial | `Log/JointFrame` | Proved for rotations equal to the identity or of angle between 1e-6 and pi, for every mask and history; below 1e-6 refuted (C100_small_refuted), with a bound of 1e-6 on the matrix used (C100_derivative_small).  A copy that is not invalidated uses an uninitialised angle (C100_copy_refuted); once invalidated it behaves as a new one (C100_copy). |
| C101 | Distance between bodies: objects taken into account | partial | `Dist/GeometryProps` | Activation of the pairs, exceptions and value: the whole statement, for non empty lists of objects (C101_active, C101_value). Jacobian: when the object of the first body is the first one of the pair, without extra configuration space (C101_derivative_partial). Refuted otherwise: C101_order_refuted (nearest points exchanged, wrong sign), C101_extra_refuted (sizes differ), C101_empty_refuted (index out of range). |
| C102 | Comparison of constraints | partial | `Implicit/EqualityProps` | C102_symmetric, C102_equal, C102_locked and C102_create hold for all constraints. C102_transitive_partial: constraints with constant functions are missing, their comparison is not transitive (C46_constant_refuted). C102_copy_partial: locked degrees of freedom of a joint and locked extra degrees of freedom are missing. C102_partial_refuted: comparing them, even with themselves, reads out of an empty vector. C102_locked_refuted: locked joints created with the same arguments are never equal. |
| C103 | Setters of generic transformations keep flags, active parameters and reference consistent | partial | `Pose/SettersProps` | C103_state, C103_active, C103_create, C103_reference, C103_exact and C103_small prove the claim with the tests of Eigen up to 1e-12; C103_getter_refuted: reference () returns the inverse of the reference set (C103_getter_partial gives what is returned); C103_small_refuted: below 1e-12 Position and Transformation give different positions. |
| C104 | Projection of velocities and configurations on the tangent space of the constraints | partial | `Svd/Project` | C104_config (kernel, free variables only, closest), C104_idempotent, C104_bounds, C104_affine. C104_tangent_partial: with explicit constraints the projected velocity is tangent exactly when the outputs do not move; C104_tangent_refuted: a tangent velocity is projected on a non tangent one. C104_bounds_refuted: without constraint the result is not saturated. Vector spaces only; the decomposition is exact. |
| C105 | Active parameters of contact functions and of the implicit functions of explicit constraints | proved | `Contact/ActiveProps` | C105_active (flags, by pairs of surfaces), C105_surfaces (the surfaces are those of the value, same exceptions), C105_value (three contact functions), C105_default (complement and hold: all flags), C105_implicit_active, C105_implicit_value. C105_implicit_jacobian_partial: one factor, as with several factors the Jacobian is not defined (C56_several_factors_refuted). The columns of the Jacobians of contact functions are not covered. |
| C106 | Functions saved in an archive and loaded again are the same functions | partial | `Fun/ArchiveEval`, `Fun/ArchiveProps` | C106_affine, C106_constant, C106_identity, C106_com, C106_explicit, C106_implicit: the object read is equal to the object written. C106_implicit_evaluates, C106_explicit_evaluates: evaluated from the members that were read, it has the value and the Jacobian of the model of the function that was built. C106_output_space: factors of the output space of a transformation in the order of the coefficients of the value. C106_transformation_partial: all the members of a generic transformation but Vindices_. C106_transformation_refuted: with any non-empty mask, the value is defined before and never after. Robots, joints and center of mass computations are restored by hpp-pinocchio (external). |
| C107 | Columns of the Jacobian that are declared inactive are zero | proved | `Contact/Columns`, `Pose/Columns` | C107_transformation, C107_contact. The Jacobians of joints (pinocchio) are inputs; Robot.Kinematic states what is required of them: along a variable of joint a, the joints that descend from a move as one rigid body and the others do not move. |
| C108 | Saturation does not spoil the descent, and stops the solver only where bounds forbid progress | proved | `Solve/BoxProps` | Proved: C108_stall, C108_descent, C108_affine, C108_decrease. C108_fixed_refuted: fails if the lower and upper bounds of a coordinate are equal. One level, all variables free, vector space. |
| C109 | Saturation objects stay within their vectors and survive an archive | partial | `Solve/SatArchiveProps` | Proved: C109_bounds, C109_defined, C109_device; positive parts C109_default_partial, C109_saved_partial. C109_default_refuted: Bounds(lb, ub) with configurations larger than velocities. C109_saved_refuted: indices of Bounds are lost in archives. |
| C110 | Linear equations with bounds | proved | `Solve/BoxLinear` | C110_one_equation, C110_constant: one equation. C110_cycle_refuted: several equations. Vector spaces, all variables free, exact decomposition. |
| C111 | The reduced Jacobian is the derivative of the error | proved | `HI/JacobianEx`, `HI/JacobianProps` | C111_reduced_jacobian, C111_other_rows, C111_squared_norm, C111_getters. C111_at_limit_refuted: at the limit of an inequality the row is zero and the error is not differentiable. The derivative of the difference and the Jacobians of the functions are assumed right; the flags of active parameters too where rows are left out. |
| C112 | Functions with saturated variables | partial | `Fun/ActiveSet` | Value, sizes, Jacobian, velocities, order and nesting, undefined behaviour. The flags are false: all the variables are declared active, C112_flags_refuted. |
| C113 | Selections of rows and columns | proved | `MatrixView/Select` | Assertions of extract (see C05) are preconditions of block, middleRows and middleCols. |
| C114 | Local convergence of a hierarchical solver built by insertion of constraints | proved | `HI/NewtonLink`, `HI/NewtonLinkProps` | Configuration space: a vector space; output spaces: any, given the derivative of the difference. Without saturation (see C94_saturated) and without optional level. |
| C115 | Local convergence of a solver by substitution built by insertion of constraints | proved | `BySub/NewtonLink`, `BySub/NewtonLinkProps` | Configuration space: a vector space; output spaces of the implicit constraints: any, given the derivative of the difference. Without saturation and without optional level. |
| C116 | Jacobian of the implicit formulation on SO(2), SO(3) and for planar joints | partial | `Explicit/OtherGroups`, `Explicit/PlanarGroup` | C116_so2: SO(2). C116_so3: exact expression of both sides on SO(3). C116_so3_satisfied_partial: equality where the constraint holds. C116_so3_refuted: elsewhere some velocity gives another derivative; C116_locked_ball_refuted: concrete motion of a locked spherical joint. The differences on SO(2) and SO(3) are those of hpp-pinocchio (external), with the logarithm of tools.hh. C116_r2xso2, C116_se2_satisfied_partial, C116_se2_refuted and C116_locked_plane_refuted: planar joints, with the logarithm of SE(2) of pinocchio (external). |
| C117 | Satisfaction of one constraint, of all of them, and thresholds in the solver by substitution | partial | `BySub/SatProps` | C117_one_partial, C117_absent: one constraint. C117_agree_partial: all constraints, thresholds of both parts. C117_given_threshold_partial: threshold given by the caller. Missing: false for an explicit constraint whose function is also the function of an implicit one (C117_hidden_refuted), and for the given threshold -1 which the explicit part takes as "my own threshold" (C117_minus_one_refuted). |
| C118 | Variables that are not free are left unchanged | partial | `Solve/FreeProps` | C118_intervals, C118_order: the set given, in any order and with overlaps. C118_saturation: variables within their bounds. C118_line_searches: the hypothesis holds for each line search. C118_unchanged_partial, C118_by_substitution_partial: solve. C118_resets, C118_add_resets: right hand sides. Missing: false for variables out of their bounds, which the saturation moves (C118_out_of_bounds_refuted); right hand sides are not kept (C118_rhs_refuted). |
| C119 | The smallest singular value reported by the solver detects losses of rank | partial | `Solve/SigmaProps` | C119_one_level: value for any sequence of calls with one level. C119_levels: defined iff the recorded ranks fit, recorded ranks, zero iff a level has lost rank. C119_direction: same direction as the model of C36. C119_bounds_partial: no access out of bounds if there are no more rows than free variables. Missing: several levels with more rows than variables may read out of bounds (C119_bounds_refuted); sigma does not vanish at a singular configuration if no greater rank has been met (C119_singular_refuted). |
| C120 | Frames attached to a surface | partial | `Contact/Frames` | C120_frame: frame of the surface, all shapes. C120_aligned_rigid: when the aligned frame is a rigid body transformation. C120_aligned_partial: aligned frame for a joint at the origin of the world and unit vectors of the plane or normal vectors. Missing: false for vectors out of the plane (C120_aligned_refuted) and for joints away from the origin of the world (C120_aligned_origin_refuted). |
| C121 | Closest point of a segment | partial | `Contact/Frames` | C121_mirror_partial: the closest point to the point symmetric to the one given with respect to the first end of the segment. C121_closest_iff: the result is right exactly if the point projects onto the first end. Missing: false otherwise (C121_closest_refuted). |
| C122 | Contact and complement constraints fix the object with respect to the floor | partial | `Contact/Leaf` | C122_leaf_partial: contact reached, objects that are segments or polygons (half turn about the normal included). C122_any_partial: any value of the contact function, polygons whose frames differ by less than a half turn. C122_converse: full converse. Missing: false for objects reduced to a point (C122_point_refuted) and at a half turn when the contact is not reached (C122_half_turn_refuted). |
| C123 | One step of the solver by substitution | partial | `BySub/OneStep` | C123_result: the verdict, from any configuration. C123_linear_partial with C123_line_searches: linear constraints, from a configuration that satisfies the explicit constraints. Missing: false if the explicit constraints do not hold initially (C123_linear_refuted); for a nonlinear constraint the outcome depends on the error left by an earlier call (C123_stale_refuted). Saturation and the exception are in the model only as an absent computation and as the outcome none. |
| C124 | Compound assignments from views | partial | `MatrixView/Compound` | C124_view: every functor, destination of the right size. C124_assign: plain assignment, any previous size. C124_expression_partial: plain assignment of an expression. Missing: false for += of an expression of a matrix and a view, the functor is ignored (C124_expression_refuted). Aliasing of the destination with the viewed matrix is not modelled. |
| C125 | Meaning of the error threshold for constraints on poses | partial | `BySub/PoseThreshold` | C125_components: rows of any constraint. C125_error_partial, C125_solve_partial: poses of angle less than pi minus the threshold; the angle at the configuration returned is then proved less than pi. Missing: false for half turns (C125_half_turn_refuted: zero error, point at distance 2). The proof shows that the exponential does not increase distances (mean value theorem along the segment, right Jacobian of norm at most 1) and that the logarithm computed is its inverse up to 5e-19. Rounding errors of floating point are not modelled. |
| C126 | Accuracy of contact constraints | proved | `BySub/ContactThreshold`, `Contact/Threshold` | C126_plane, C126_point, C126_converse about the function; C126_solve for the solver. The two components of the logarithm used bound the tilt of the normals from both sides, in the three cases of the formula of logSO3, half turns included (log_tilt). Distances and projections are stated with the polygons given to the constructor, as in C84. Rounding errors of floating point are not modelled. |
| C127 | Solving again what has been solved | partial | `BySub/Again` | C127_hierarchical, C127_kept and C127_again are complete. C127_better_partial: configurations between a fourth of the squared threshold and the squared threshold are not kept, they are improved by at most two iterations; C127_moves_refuted: with the line search FixedSequence of the code and one equation x = 0, the result of a successful call is moved again by a second one. C127_again assumes that explicit constraints are defined at configurations where they have been solved (their functions read only input variables). |
| C128 | The order of insertion of constraints of the same priority does not matter | proved | `BySub/OrderProps`, `HI/OrderProps`, `Solve/OrderProps` | Exact arithmetic; the singular value decompositions of the two solvers may be different, both exact. C128_direction, C128_slope and C128_saturation: the descent direction, the slope of backtracking and the columns blocked by saturation depend on a level only through the squared norms of its linearised errors. C128_order: the whole of solve for HierarchicalIterative. C128_substitution: the whole of impl_solve for BySubstitution when both the explicit and the implicit constraints are permuted (explicit constraints defined everywhere, sorted inputs; same free variables). C128_implicit: explicit constraints that may be undefined, inserted in the same order. |
| C129 | Constraints that do not depend on the free variables | proved | `HI/ReachProps` | C129_line_searches: the configuration returned by each line search is obtained by integration. C129_never: an unsatisfied mandatory constraint out of reach excludes SUCCESS. C129_nothing: no constraint depends on the free variables. C129_removable: removal of a constraint out of reach; the two solvers have the same number of levels, exact arithmetic. |
| C130 | A stack of constraints and its parts inserted one by one | proved | `HI/StackProps` | The derivative of the difference of a product of Lie groups is assumed diagonal by blocks (hpp-pinocchio). Exact arithmetic. C130_status_refuted: the results are not always the same, because the norm of the error of each constraint is compared with the threshold: there is a configuration where the solver with the parts returns SUCCESS at once and the solver with the stack does not. |
| C131 | Backtracking on linear constraints that have a common solution | partial | `Solve/BacktrackLinear` | Exact arithmetic, no saturation. C131_many_refuted: for K constraints with equal errors the step to the solution is kept exactly if K is at most 500, and the line search fails exactly if K is at least 880. C131_optional_refuted: with one mandatory and one optional constraint, both satisfied by the step, the line search fails if the optional error is large, because the optional level is counted in the slope (computeLocalSlope) and not in the error (computeError). |
| C132 | Units, priorities and redundant constraints do not change the descent direction | proved | `Solve/Redundant` | Exact arithmetic and decompositions; the first level must not be empty if there are several (see C93_empty_first_refuted). C132_conflict_refuted: without common solution units and priorities matter, the direction is c^2/(c^2+1) for the constraints x = 1 multiplied by c and x = 0. |
| C133 | Priorities do not change the result while the linearised constraints are compatible | proved | `BySub/PriorityProps`, `HI/PriorityProps` | Exact arithmetic and decompositions, no saturation; some constraint of priority 0 has a row to be solved for in both solvers (see C93_empty_first_refuted). Without common solution priorities matter: C132_conflict_refuted. C133_substitution is about BySubstitution::impl_solve, for solvers without optional level. |
| C134 | More iterations or a larger threshold never turn a success into a failure | partial | `BySub/BudgetProps`, `HI/BudgetEx`, `Solve/BudgetProps` | Totally ordered numbers. C134_by_level_refuted: with the option to solve level by level, a larger threshold turns a success into a failure. C134_hierarchical_partial, C134_substitution_partial: without this option and with a line search that does not read the threshold (the line search ErrorNormBased does), since the steps themselves change otherwise; the number of iterations alone needs neither (C134_iterations, C134_substitution_iterations). Iterations of the solver by substitution: when the error is initially below the threshold and the solver does not optimize, two iterations must be allowed (only two are performed, the code starts counting at max - 2). Optimization: unless an explicit function is evaluated out of its domain, in which case the configuration out of the domain is returned. |
| C135 | The result does not depend on the unit in which the constraints are expressed | proved | `BySub/UnitProps`, `HI/UnitProps`, `Solve/UnitProps` | Real numbers, exact decompositions (so that the truncation of small singular values plays no role). The functions have values in vector spaces, where the derivative of the difference is the identity. The line searches are compared by a specification that the four line searches of the library are shown to meet. The lower bound on the norm of the step is a constant of the code: it is not converted, the steps being the same. |
| C136 | Functions that do not change when the robot is displaced as a whole | proved | `RelPose/DisplaceProps` | Real numbers. The exceptions are theorems: C136_absolute_refuted, C136_floor_refuted and C136_tilted_refuted are the last sentence of the statement, not exceptions to it. The first sentence is proved for the model of forward kinematics; the others for all states of the robot that are displaced, also when they are not reached by forward kinematics. The solver of quadratic programs and the decomposition are parameters. |
| C137 | The numbering of the configuration variables does not matter | proved | `HI/NumberProps`, `Solve/NumberProps` | Real numbers, exact decompositions. The bijections are on the natural numbers, so that the numbers of variables of both robots may differ. The list of free variables has no repetition (hypothesis). The work variable dq_ of both solvers corresponds at the start. The four line searches are shown to meet the specification used for them. The implicit constraints only: the graph of explicit constraints is not renumbered. |
| C138 | The test of strict complementarity tells whether the Jacobian of the static stability constraint is right | partial | `Stab/QpChecks` | C138_test: the forces are optimal, pass checkQPSol, and the meaning of the second test. C138_unique, C138_unique_iff: when the test passes the optimal forces are unique if and only if the contacts that carry a force are independent. C138_derivative_partial: the test passes and these contacts are independent: twice the Jacobian (see C59_half_refuted) is the derivative. C138_passes_refuted: the test passes although the value has no derivative. C138_fails_refuted: the test fails although the Jacobian is the derivative. Real numbers, exact solver; the dual solution of qpOASES is modelled by its definition (the gradient of the objective). |
| C139 | Symmetries of the constraints are symmetries of the solvers | proved | `BySub/SymmetryProps`, `HI/NumberProps` | C139_symmetry: HierarchicalIterative (A is any set of configurations, e.g. poses and joint values). C139_substitution: BySubstitution; C139_explicit gives its hypothesis on the explicit constraints from the explicit functions; C139_line_searches: the line searches of the library; C139_substitution_iterations: the iterations alone. C136 tells which functions of the library are unchanged by a displacement. Saturation must not depend on the transformed variables (the position of the root has no bounds). Real numbers, exact decompositions. |
| C140 | Units of the configuration variables | partial | `HI/VarUnits`, `Solve/VarUnits` | C140_direction, C140_slope, C140_saturation: descent direction, slope and saturation of HierarchicalIterative; C140_iterations: the iterations; C140_units_partial: solvers built by insertion of constraints. Partial because false in general: C140_direction_refuted (an under-determined problem has another shortest step in other units), C140_status_refuted (the squared norm of the step is compared with a constant, so that a solvable problem becomes "infeasible" in larger units). Not level by level; the first level is not empty. Real numbers, exact decompositions. |
| C141 | Solving on the leaf of a configuration | proved | `BySub/Leaf`, `BySub/LeafEx` | C141_start, C141_leaf, C141_leaf_component, C141_kept, C141_not_worse, C141_same_leaf: HierarchicalIterative; C141_substitution, C141_substitution_start, C141_same_leaf_explicit: BySubstitution; C141_solver, C141_solver_start: BySubstitution::rightHandSideFromConfig followed by solve, for solvers built by add. Numerical steps are arbitrary except the error. Components that are not compared by Equality are supposed neutral at q0 (otherwise see C25_mixed_refuted), except in the vector space versions. The drift of repeated calls is C141_drift_refuted. |
| C142 | Bounds that are not reached do not matter | proved | `BySub/InsideProps`, `HI/InsideEx`, `HI/InsideProps` | C142_bounds: any configuration space; C142_vector_space: condition on the full steps only; C142_line_searches: Constant, Backtracking (default parameters), FixedSequence and ErrorNormBased look only at the segment between the configuration and the full step; C142_substitution: the same for BySubstitution, optimizing or not; C142_reached_refuted: with an upper bound larger than 1 the example succeeds, with the upper bound 1/2 it reports MAX_ITERATION_REACHED. |
| C143 | Local convergence inside the bounds | proved | `HI/InsideNewton` | C143_success, for the solvers built by add (C114 with bounds, by C142_any_space and the trajectories of C94); C143_line_searches: the step lengths of the four line searches of the library. Configuration space: a vector space. Without optional level, levels solved together. |
| C144 | Local convergence of BySubstitution inside the bounds | proved | `BySub/InsideNewton` | C144_success, for the solvers built by add (C115 with bounds, by C142_substitution and the trajectories of C95); C144_line_searches: the step lengths of the four line searches of the library. Configuration space: a vector space; explicit functions defined everywhere. Without optional level, levels solved together. |
| C145 | An iteration does not move a variable at a bound that the constraints push out | proved | `BySub/BlockProps`, `HI/BlockProps` | C145_columns, C145_columns_substitution: any number of levels; C145_direction, C145_direction_substitution, C145_stays, C145_stays_substitution: one level; C145_in_bounds: HierarchicalIterative, any number of levels; C145_line_searches: the four line searches. Bounds with an interior (lower < upper); for lower = upper see C108_fixed_refuted. The flags of the variables without bounds are supposed to be zero initially. For BySubstitution the coordinates written by explicit constraints are not covered (see C92). |
| C146 | Without explicit constraints BySubstitution iterates like HierarchicalIterative | proved | `BySub/NoExplicit` | C146_rows, C146_levels, C146_iterations, C146_errors: equality of the computations; C146_success: the results, when BySubstitution does not optimize the last level; C146_converse_refuted: no free variable and error between a quarter of the threshold and the threshold. |
| C147 | Variables out of reach of the solver by substitution | proved | `BySub/ReachProps` | C147_explicit: the set of explicit constraints; C147_kept: solve in both modes; C147_never, C147_nothing: statuses; C147_line_searches: the four line searches. The counterpart of C129 for BySubstitution. Simplification of the model: when an explicit function is not defined at a configuration (status INFEASIBLE), nothing is stated about the configuration returned. |
| C148 | Accuracy of Jacobians by finite differences | proved | `Fun/FiniteDiffAccuracy` | Exact arithmetic: the loss of precision due to rounding for small steps is not modelled. C148_forward, C148_central, C148_limit: any integration and any difference of values; C148_central_real, C148_central_first_order: values in vector spaces; C148_forward_sharp: the bound is reached; C148_manipulability. |
| C149 | Configurations accepted by StaticStability and by QPStaticStability | proved | `Stab/StaticVsQp` | C149_iff is the equivalence, C149_forces the correction, C149_sufficient and C149_independent the comparison with QPStaticStability, C149_disagree the configuration in equilibrium that StaticStability rejects. Exact arithmetic; contracts of the SVD and of qpOASES as in C59 and C82 (both are shown to have models). |
| C150 | Bounds and priorities | proved | `Solve/BoundsPriority` | C150_blocked, C150_first: not solving level by level, first level not empty if there are several (see C93_empty_first_refuted). C150_optional_refuted: an optional level prevents the mandatory one from being solved, line search Constant. |
| C151 | Optional constraints when levels are solved one after the other | proved | `Solve/OptionalBacktrack`, `Solve/OptionalProps` | C151_direction: the direction; C151_ignored: the whole of solve for any levels; C151_solver: for a solver built by insertions, all the rows of which depend on a free variable (Kept); C151_line_searches. C151_backtracking_refuted: with Backtracking, one mandatory and one optional constraint, the step to the solution is accepted without the optional level and divided by 5 with it, although the optional level is not used for the direction. |
| C152 | Which levels are considered when levels are solved one after the other | proved | `Solve/LevelByLevel` | C152_stops, C152_all: the levels that are read, by the linearised error (linError); C152_documented_refuted: three levels on which the documented criterion (the level is not satisfied) is wrong in both directions. |
| C153 | Linear constraints solved one level after the other | proved | `HI/LevelLinear`, `Solve/LevelLinear` | C153_each: the levels satisfied after k iterations; C153_solve: the result; C153_solver: the same for the rows, errors and reduced Jacobians that a solver computes for the constraints inserted, on a vector space; C153_five_refuted: the five levels x0 = 1, x1 = x0, ..., x4 = x3, for which ERROR_INCREASED is returned one iteration before the solution. Exact arithmetic. The counterpart of C91 for this option. |
| C154 | Only the order of the priorities matters | proved | `BySub/GapProps`, `HI/GapProps`, `Solve/GapFirst` | C154_direction: removal of the levels without rows; C154_gaps: solve for solvers built by insertions; C154_substitution: BySubstitution; C154_first_refuted: one constraint with priority 0 or 1, the results differ by any direction left by a previous call in the kernel of the Jacobian. Exact arithmetic. |
| C155 | Calling solve again after MAX_ITERATION_REACHED | proved | `BySub/Resume`, `BySub/ResumeLink`, `Solve/Resume`, `Solve/ResumeCalls` | C155_resume: all statuses; C155_calls: any number of calls; C155_increased_refuted: one call returns ERROR_INCREASED, two calls return SUCCESS (levels of C153_five_refuted); C155_line_search_refuted: FixedSequence; C155_substitution, C155_substitution_refuted: solver by substitution without optimization, for explicit constraints that keep what they return; C155_explicit: this holds for every solver built by insertions; C155_optimize, C155_optimize_refuted: with optimization. Totally ordered numbers. |
| C156 | Decrease of the error along the iterations | proved | `Solve/Progress` | C156_progress and C156_count: hierarchical solver; C156_substitution and C156_substitution_count: solver by substitution without optimization; the theorems on counts: at least (n - 2) / 3 of n iterations decrease the error; C156_larger_refuted: the error returned is not bounded in terms of the initial error. Totally ordered numbers. |

## Parts of the code that are not modelled

* Printing, logging, debug macros, boost serialization archives (the saved fields are modelled, C66,
  not the formats), Python bindings.
* The numerical iterations inside external libraries (SVD, QP, collision detection): contracts only.
* Concurrency: `DevicePool`/`DeviceSync` give each evaluation its own device data; the model has one.
* Rounding errors.

## Disagreements between the code and the expected property

Refuted theorems (suffix `_refuted`) contain a witness inside the model. In short:

| Code | Disagreement | Theorem |
|--|--|--|
| matrix-view.cc `overlap` | strict containment is missed | `C06_overlap_refuted` |
| impl/matrix-view-operation.hh:218 | operations between two views read the right view with the intervals of the left one | `C67_view_op_view_refuted` |
| explicit-constraint-set.cc `add` | `shrink` without `sort` on input indices loses variables | `C11_unsorted_inputs_refuted`, `C15_unsorted_inputs_refuted` |
| explicit-constraint-set.cc `add` | incoherent configuration/velocity indices: the order does not terminate | `C12_incoherent_diverges` |
| explicit-constraint-set.cc `isSatisfied` | strict comparison: nothing is satisfied with a zero threshold | `C18_zero_threshold_refuted` |
| implicit-constraint-set.hh | the parameter size of a stack is not updated | `C19_set_parameter_size_refuted` |
| hierarchical-iterative.cc `rightHandSideFromConfig` | mixed comparison types on a non commutative output space | `C25_mixed_refuted` |
| hierarchical-iterative.cc `rightHandSide(vector)` | two non empty levels: out of range | `C26_two_levels_refuted` |
| hierarchical-iterative.cc `add` | all right hand sides are reset | `C27_refuted` |
| hierarchical-iterative.cc `merge` | throws in the middle, the receiver is modified | `C28_merge_refuted` |
| impl/hierarchical-iterative.hh `solve`, `computeError` | NaN errors are reported as success | `C29_nan_refuted`, `C33_nan_refuted` |
| impl/line-search | tau >= 1 does not terminate | `C30_backtracking_refuted` |
| saturation | flags of joints whose coordinates share a velocity index | `C31_device_flags_refuted` |
| copy constructor | output spaces and right hand sides shared with the original until updated | `C34_copy_refuted` |
| `isConstraintSatisfied` | differs from `solve` with inequalities and optional level | `C35_inequality_refuted`, `C35_optional_refuted` |
| `computeDescentDirection` | empty levels: stale `dq` | `C36_stale_refuted`, `C36_all_empty_refuted` |
| by-substitution `solve` | INFEASIBLE for satisfied constraints; `optimize` returns an unsatisfied configuration | `C37_infeasible_refuted`, `C37_infeasible_step_refuted`, `C37_optimize_refuted` |
| by-substitution `rightHandSide(vector)` | the explicit set receives the head of the vector | `C38_head_refuted`, `C38_refuted`, `C38_hidden_refuted` |
| by-substitution extraction | the explicit set of the original is modified and shared | `C39_explicit_moved_refuted`, `C39_second_refuted`, `C39_write_refuted` |
| by-substitution `add` | constraints that differ by their mask are equal | `C40_mask_refuted` |
| by-substitution `errorSize` | counts output variables | `C41_refuted` |
| svd.hh | projectors with a thin decomposition | `C42_thin_refuted` |
| extracted-function.hh | the Jacobian is evaluated at another parameter | `C43_jacobian_refuted` |
| active-set-differentiable-function.hh, function/difference.cc | columns left or overwritten | `C44_subset_refuted`, `C44_difference_overlap_refuted`, `C44_difference_active_refuted` |
| comparison operators | members not compared, history dependent | `C46_*_refuted` |
| symbolic-calculus.hh | cross product of points and centers of mass, non transposed rotation, caches | `C47_*_refuted`, `C48_*_refuted` |
| explicit/relative-pose.cc | q and -q | `C49_vector_refuted` |
| explicit/relative-transformation.cc | outputs may be inputs; parent of the freeflyer: wrong sign | `C50_descendant_refuted`, `C78_refuted` |
| convex-shape.hh `reverse` | points and segments keep their normal | `C53_reverse_refuted` |
| convex-shape-contact.cc | outline; margins; point contacts | `C54_outline_refuted`, `C55_margin_refuted`, `C55_point_refuted` |
| convex-shape-contact.cc `impl_jacobian` | throws for a segment although the value is defined | `C83_line_refuted` |
| convex-shape.hh `init` (two points) | the normal of a segment is an arbitrary direction of the joint: a segment lying in the floor is not in contact | `C84_line_refuted` |
| explicit/convex-shape-contact.cc `outputValue` | floors on different joints: another pair becomes the nearest one, the output is not a solution | `C86_satisfied_refuted` |
| explicit/convex-shape-contact.cc `outputValue` | the orientation of a point object is not kept | `C86_point_refuted` |
| explicit/convex-shape-contact.cc `jacobianOutputValue` | floors on different joints: matrix of the wrong size | `C86_jacobian_refuted` |
| explicit/convex-shape-contact.cc `checkContactSurfaces` | the test on the parent joint is after a `throw` | `C86_parent_refuted` |
| explicit/relative-pose.cc `jacobianOutputValue` | parent of the freeflyer: inherits C78 | `C87_refuted` |
| manipulability.cc `impl_compute` | more rows than active columns: singular but value zero | `C88_tall_refuted` |
| affine-function.hh `ConstantFunction` | all parameters declared active | `C89_constant_refuted` |
| impl/hierarchical-iterative.hh `computeLocalSlope` | sums the levels: positive for levels that conflict, the direction is then said not valid | `C90_levels_refuted` |
| impl/hierarchical-iterative.hh `Backtracking` | slope of the sum of the squared errors, but maximum over the constraints compared | `C90_max_refuted` |
| impl/hierarchical-iterative.hh `solve` | `INFEASIBLE` for a solvable linear constraint whose solution is too close | `C91_infeasible_refuted` |
| hierarchical-iterative.cc `computeDescentDirection` | `solveLevelByLevel`: `ERROR_INCREASED` for solvable linear constraints | `C91_level_by_level_refuted` |
| by-substitution.hh `integrate` | outputs of explicit constraints are computed after the saturation | `C92_output_refuted` |
| impl/hierarchical-iterative.hh `solve` | an initial configuration out of the bounds is not saturated | `C92_initial_refuted` |
| convex-shape-contact.cc `computeContactPoints` | sign of the distance: surfaces far above the floor are reported | `C85_far_refuted` |
| explicit/implicit-function.cc | rows of several factors written out of bounds | `C56_several_factors_refuted` |
| locked-joint.cc | velocity intervals of two constructors | `C57_index_refuted`, `C57_extra_refuted` |
| qp-static-stability.cc | half of the derivative, stale matrix | `C59_half_refuted`, `C59_history_refuted` |
| distance-between-points-in-bodies.cc | second point ignored in the world; Jacobian of a stale robot | `C60_world_refuted`, `C60_history_refuted` |
| configuration-constraint.cc | different weights inside a rotation | `C61_weights_refuted` |
| `definesSubmanifoldOf` | functions only | `C64_inclusion_refuted` |
| symbolic-function.hh | output size ignores the mask | `C65_size_refuted` |
| serialization of the solver | right hand sides, free variables lost | `C66_rhs_lost_refuted` |
| masked rows | inequality with positive threshold | `C70_masked_inequality_refuted` |
| `activeParameters` | empty level | `C71_empty_level_refuted` |
| by-substitution reduction | free variables that are not the complement of outputs | `C73_locked_refuted`, `C74_locked_refuted` |
| tools `logSO3` | half turn: signs | `C76_half_turn_refuted` |
| com-between-feet.cc | columns of extra degrees of freedom | `C79_extra_refuted` |
| hierarchical-iterative.cc `computeDescentDirection` | the first level is empty: the direction is not the shortest one | `C93_empty_first_refuted` |
| impl/hierarchical-iterative.hh `solve` | constant steps: cycles forever on a solvable constraint | `C94_global_refuted` |
| explicit/relative-transformation.hh `dependsOnRelPoseBetween` | the value depends on joint1 and on the parent of joint2, not on the pair returned | `C96_explicit_refuted` |
| explicit/implicit-function.cc `dependsOnRelPoseBetween` | an output interval that starts inside the variables of a joint is accepted | `C96_shifted_refuted`, `C97_shifted_refuted` |
| implicit.cc `doesConstrainRelPoseBetween` | comparison types ignored: with inequalities the joints can still move | `C97_inequality_refuted` |
| implicit.cc `doesConstrainRelPoseBetween` | transformation with vector values: the pose is not fixed at half turns | `C97_half_turn_refuted` |
| implicit.cc `doesConstrainRelPoseBetween` | constraints of dimension other than 6 that fix the relative pose are not reported | `C97_incomplete_refuted` |
| tools.hh `JlogSO3`, `JlogSE3`, helper.hh `computeJlog` | below 1e-6 the identity is returned, which is not the derivative of the logarithm computed (error at most 1e-6) | `C58_small_refuted`, `C58_inverse_small_refuted`, `C77_small_refuted`, `C52_small_refuted` |
| by-substitution.cc `implicitDof` | a level without constraint has an empty array of active variables: sum of arrays of different sizes | `C75_empty_level_refuted` |
| implicit.cc `serialize` | `output_` and `logOutput_` are not resized when reading: `rightHandSideFromConfig` and `rightHandSideAt` then write out of bounds | `C98_constraint_refuted` |
| by-substitution.cc `load` | the error threshold of the explicit constraint set is not restored (machine precision instead): a satisfied configuration is no longer satisfied | `C99_values_refuted`, `C99_satisfaction_refuted` |
| by-substitution.cc `load` | `JeExpanded_` is left empty: the first iteration writes out of bounds as soon as an explicit constraint has inputs | `C99_jacobian_refuted` |
| symbolic-calculus.hh `JointFrame` copy constructors | the flags of the cache and `theta_` are not initialised: used before `invalidate`, the Jacobian of the copy is computed with an arbitrary angle | `C100_copy_refuted` |
| symbolic-calculus.hh `JointFrame::impl_jacobian` | below 1e-6, the Jacobian is not the derivative of the value (difference bounded by 1e-6) | `C100_small_refuted`, `C100_derivative_small` |
| distance-between-bodies.cc `impl_jacobian` | `nearest_points[0]` is assumed to be on the body of joint1: false when the pair is stored in the other order, which `findCollisionPair` accepts; the Jacobian then has the wrong sign | `C101_order_refuted` |
| distance-between-bodies.cc, distance-between-points-in-bodies.cc `impl_jacobian` | a row with as many columns as the Jacobian of a joint is assigned to a matrix that also has the columns of the extra degrees of freedom | `C101_extra_refuted` |
| distance-between-bodies.cc | with no object, the distance is read at an index out of range | `C101_empty_refuted` |
| locked-joint.cc `LockedJoint::isEqual` | two locked joints created with the same joint and value are never equal, since the addresses of their constant functions are compared; a solver accepts both | `C102_locked_refuted` |
| locked-joint.cc `LockedJoint::isEqual` | comparing a partial or extra dof locked joint with itself reads `outputConf_[0]`, the vector being empty | `C102_partial_refuted` |
| manipulability.hh `isEqual` | compares the buffers of the last evaluation: the answer depends on the history, and is undefined if only one of the functions was evaluated | `C46_manipulability_history_refuted` |
| distance-between-bodies.hh `isEqual` | compares the results of the last computation | `C46_bodies_history_refuted` |
| convex-shape-contact.cc `ConvexShapeContactComplement::isEqual` | compares the contacts, hence the floors and not the objects | `C46_complement_refuted` |
| generic-transformation.hh:240 `reference ()` | returns the inverse of the reference set by `reference (M)`; setting the reference to the value read changes the constraint | `C103_getter_refuted` |
| generic-transformation.hh:68-75 `checkIsIdentity1` | frames closer than 1e-12 to the identity are ignored by Position but not by Transformation | `C103_small_refuted` |
| by-substitution.cc:258-281 `projectVectorOnKernel` | documented as `(I - J⁺J) v`; the outputs of explicit constraints get velocity 0, so a tangent velocity becomes non tangent | `C104_tangent_refuted` |
| by-substitution.cc:287-290 `projectOnKernel` | without constraint the configuration is returned without saturation | `C104_bounds_refuted` |
| generic-transformation.cc `serialize` | `Vindices_` is neither written nor computed again: after loading, `impl_compute` assigns a view of 0 rows to the result. | `C106_transformation_refuted` |
| src/solver/hierarchical-iterative.cc `saturation::clamp` / `computeSaturation` | if the lower and upper bounds of a coordinate are equal the flag is always -1: the column is not set to zero when the error pushes the coordinate up, and the solver may stall although moving other variables decreases the error | `C108_fixed_refuted` |
| src/solver/hierarchical-iterative.cc `serialize(saturation::Bounds)` | `iq2iv_` is not saved: after loading, `saturate` reads out of an empty vector | `C109_saved_refuted` |
| include/hpp/constraints/solver/hierarchical-iterative.hh `Bounds(lb, ub)` | indices are the identity: with quaternions, `saturate` writes after the end of the flags | `C109_default_refuted` |
| src/solver/hierarchical-iterative.cc `computeSaturation` | with constant steps the set of blocked variables may cycle: a linear system with a solution inside the bounds is never solved | `C110_cycle_refuted` |
| src/solver/hierarchical-iterative.cc `compare` | at the limit of an inequality the row of the Jacobian is zero although the error increases on one side | `C111_at_limit_refuted` |
| active-set-differentiable-function.hh constructor | saturated variables, and the inactive variables of the function, are declared active | `C112_flags_refuted` |
| explicit/implicit-function.cc `JacobianVisitor` | default visitor used for SO(3) and SE(2): the Jacobian lacks the derivative of the logarithm | `C116_so3_refuted`, `C116_locked_ball_refuted`, `C116_se2_refuted` |
| by-substitution.cc `isConstraintSatisfied` | the iterative part is asked first: for an explicit constraint whose function also belongs to a constraint solved iteratively, the answer is that of the latter | `C117_hidden_refuted` |
| explicit-constraint-set.hh `isSatisfied(arg, errorThreshold = -1)` | a threshold equal to -1 means the threshold of the set, whereas the iterative part compares with it | `C117_minus_one_refuted` |
| hierarchical-iterative.cc `integrate` | the saturation moves the variables out of their bounds even when they are not free | `C118_out_of_bounds_refuted` |
| hierarchical-iterative.hh `freeVariables` | the call of `update()` resets all the right hand sides | `C118_rhs_refuted` |
| hierarchical-iterative.cc `computeDescentDirection` | with several levels `singularValues()[maxRank - 1]` is out of bounds when the rank of an upper level increases | `C119_bounds_refuted` |
| hierarchical-iterative.hh `sigma` | documented as zero when the Jacobian is singular; it is the smallest nonzero singular value on the first call | `C119_singular_refuted` |
| convex-shape.hh `alignedPositionInJoint` | the second axis is the vector and not its normalized projection: the result is not a rigid body transformation | `C120_aligned_refuted` |
| convex-shape.hh `alignedPositionInJoint` | the vector is transformed as a point (`actInv`) | `C120_aligned_origin_refuted` |
| convex-shape.hh `closestPointToSegment` | the vector from the origin of the segment to the point has the wrong sign | `C121_closest_refuted` |
| convex-shape-contact.cc contact and complement of a point | two orientations of the object have the same values of the contact and of the complement | `C122_point_refuted` |
| by-substitution.hh `oneStep` | the explicit constraints are not solved before the step: a satisfied implicit constraint is violated after the step | `C123_linear_refuted` |
| by-substitution.hh `oneStep` | `computeError` is not called: backtracking compares with the error of an earlier call and accepts a step that multiplies the error by four | `C123_stale_refuted` |
| impl/matrix-view-operation.hh:78-81 | the functor is not used: `dst += matrix + view` overwrites `dst` | `C124_expression_refuted` |
| generic-transformation.cc, tools.hh `logSO3` | the error of a pose constraint is zero at a pose different from the one required if both are half turns with opposite products of axis components | `C125_half_turn_refuted` |
| by-substitution.hh `impl_solve` | the result of a successful call from a configuration that satisfied the constraints may be moved again by a second call | `C127_moves_refuted` |
| C131 | `computeLocalSlope` sums over all constraints of all levels, `computeError` takes the largest error of the mandatory ones: with more than 500 constraints, or an optional constraint with a large error, Backtracking refuses an exact step |
| qp-static-stability.cc:194-198 | the message "Jacobian WILL be wrong" is written although the Jacobian is the derivative, and not written although there is no derivative | `C138_fails_refuted`, `C138_passes_refuted` |
| hierarchical-iterative.cc:744-823 | with solveLevelByLevel a larger error threshold can turn a success into a failure | `C134_by_level_refuted` |
| src/solver/hierarchical-iterative.cc:744-823 | the step is the shortest one in the units of the variables: the result for an under-determined problem depends on the units | `C140_direction_refuted` |
| include/hpp/constraints/solver/impl/hierarchical-iterative.hh:137-155 | the squared norm of the step is compared with a constant whatever the units: `q = 1` is reported infeasible when the unit is large | `C140_status_refuted` |
| src/solver/hierarchical-iterative.cc:436-444 | `rightHandSideFromConfig` after each successful `solve` lets the leaf drift: the errors below the threshold add up without bound | `C141_drift_refuted` |
| src/solver/hierarchical-iterative.cc:712-719 | a bound in the way of a step can turn a success into a failure | `C142_reached_refuted` |
| include/hpp/constraints/solver/impl/by-substitution.hh:81-82 | with `reducedDimension_ == 0` and a squared error between .25 and 1 times the squared threshold `solve` returns `INFEASIBLE` although `isSatisfied` holds; `HierarchicalIterative::solve` returns `SUCCESS` | `C146_converse_refuted` |
| src/static-stability.cc:92-114, 176-191 | A configuration in equilibrium with non-negative contact forces can be rejected: only the forces of least norm are ever accepted, the correction `v` never helps | `C149_disagree`, `C149_forces` |
| src/solver/hierarchical-iterative.cc:653-672 | Columns of variables at a bound are set to zero level by level: a level of lower priority can move a variable that is blocked in a level of higher priority, and prevent `solve` from converging | `C150_optional_refuted` |
| src/solver/hierarchical-iterative.cc:696, 809 | With `solveLevelByLevel` and one mandatory level the optional level has no effect: it is considered only once the mandatory one is solved, and then `solve` stops | `C151_ignored`, `C151_solver` |
| src/solver/hierarchical-iterative.cc:809 | `solveLevelByLevel` is documented as considering only the first level that is not satisfied; the code compares the linearised residual after the step of the previous levels with the threshold, so that a later level can be considered while an earlier one is not satisfied and the reverse | `C152_stops`, `C152_documented_refuted` |
| impl/hierarchical-iterative.hh:160-168 | With `solveLevelByLevel` and five levels or more, linear compatible constraints can be abandoned with `ERROR_INCREASED` although each iteration satisfies one more level: progress is measured by the largest error of all levels | `C153_five_refuted` |
| impl/hierarchical-iterative.hh:91-104 | `computeLocalSlope` adds the slopes of all levels, also of those that the direction ignores and of the optional one, whereas the error tested is that of the mandatory levels | `C151_backtracking_refuted`, `C131_optional_refuted` |
| hierarchical-iterative.cc:744-823 | If no constraint has priority 0, `solve` starts from the direction left in `dqSmall_` by the previous call: the configuration returned depends on it | `C154_first_refuted` |
| impl/hierarchical-iterative.hh:132-171 | The criterion on the decrease of the error is restarted at each call: a problem abandoned with `ERROR_INCREASED` is solved if `solve` is interrupted and called again | `C155_increased_refuted` |
| impl/by-substitution.hh:62-71,150-157 | A configuration returned with `MAX_ITERATION_REACHED` whose error is between a quarter of the threshold and the threshold is returned with `SUCCESS` by a second call | `C155_substitution_refuted` |
| impl/by-substitution.hh:62-65,131-142 | With optimization the scaling of the steps is restarted at each call: two calls may return a lower cost than one call with as many iterations | `C155_optimize_refuted` |
| impl/hierarchical-iterative.hh:132-171 | The configuration returned after `MAX_ITERATION_REACHED` may have a larger error than the initial one, without bound | `C156_larger_refuted` |

Read in the code, without a theorem (not part of a property):

* `Explicit::isEqual` (explicit.cc 127-141) and `Implicit::isEqual` ignore the right hand side
  function and the mask.
* convex-shape.hh `closestPointToSegment` (51-63) is wrong (and not used).
* `ConfigurationConstraint::create` with a mask longer than `numberDof` writes out of bounds.
* `ComBetweenFeet` subtracts `pointRef` in the world frame, the header says reference joint frame.
* `QPStaticStability::isEqual` compares addresses of a member constant: two objects are never equal.
* implicit-function.cc: the default visitor is used for SO(3) and SE(2) factors.

## Axioms of each theorem

Computed by `Lean.collectAxioms` on the theorems named in `MANIFEST.json`.

* no axiom: `C02_count_needs_update`, `C06_overlap_refuted`, `C22_removed`, `C44_difference_active_refuted`, `Sym.C65_size_refuted`.

* `Quot.sound`, `propext`: `C02_add_rows`, `C05_split`, `C14_acceptance_order`, `C17_set_absent`, `C21_compare`, `C21_defined`, `C21_types`, `C21_vector`, `C25_mixed_refuted`, `C29_nan_refuted`, `C29_statuses`, `C30_solve`, `C31_device_flags_refuted`, `C31_flags_last`, `C31_flags_partial`, `C31_idempotent`, `C31_within_bounds`, `C36_free_only`, `C37_optimize`, `C37_optimize_best_partial`, `C39_replace`, `C40_equal`, `C44_difference`, `C44_difference_active_partial`, `C44_difference_partial`, `C44_subset`, `C44_subset_active`, `C44_subset_partial`, `C57_extra_refuted`, `C57_index_refuted`, `C57_ranks`, `C73_synced`, `C74_locked_refuted`, `C92_by_substitution_partial`, `C98_constraint_partial`, `C98_constraint_refuted`, `Extract.C39_write_refuted`, `FnEq.C46_class`, `FnEq.C46_congruence_partial`, `FnEq.C46_reflexive_partial`, `FnEq.C46_rest_partial`, `FnEq.C46_symmetric`, `FnEq.C46_transitive_partial`.

* `propext`: `Alias.C34_copy_refuted`, `C03_unsorted_wrong`, `C04_add_segs_multiset`, `C07_copy_needs_same_cut`, `C14_reorder`, `C18_default_threshold`, `C22_evaluation`, `C28_merge_refuted`, `C33_empty_optional`, `C33_nan_refuted`, `C35_inequality_refuted`, `C35_optional_refuted`, `C38_hidden_refuted`, `C38_refuted`, `C40_exception`, `C40_mask_refuted`, `C40_refused`, `C44_difference_overlap_refuted`, `C44_subset_refuted`, `C64_inclusion_refuted`, `C67_view_op_view_refuted`, `C69_created_iff`, `C99_satisfaction_refuted`, `FnEq.C46_bodies_history_refuted`, `FnEq.C46_complement_refuted`, `FnEq.C46_constant_refuted`, `FnEq.C46_contact_refuted`, `FnEq.C46_contact_undefined_refuted`, `FnEq.C46_extracted_refuted`, `FnEq.C46_generic_refuted`, `FnEq.C46_history_partial`, `FnEq.C46_manipulability_history_refuted`, `FnEq.C46_relative_com_refuted`, `FnEq.C46_set_history_refuted`.

* `propext`, `Classical.choice`, `Quot.sound`: all the other theorems (408).
