{"id": "C01", "title": "Normalising index intervals keeps exactly the same indices", "statement": "Calling sort then shrink on any list of (start,length) index intervals yields intervals that are in increasing order, pairwise disjoint and non adjacent, and that cover exactly the indices covered by the input list: no index is lost and none is invented.", "quantifier": "every list of intervals, of any length, with arbitrary overlaps, duplicates, empty intervals and order", "why_tests_cant": "The number of overlap patterns grows without bound with the number of intervals; a unit test samples a handful of patterns.", "anchors": ["src/matrix-view.cc:BlockIndex::sort", "src/matrix-view.cc:BlockIndex::shrink"]}
{"id": "C02", "title": "Number of selected rows equals the number of distinct indices", "statement": "After updateRows/updateCols (sort, shrink, cardinal) the reported number of rows (columns) of an index set equals the number of distinct indices that were added, whatever the order, overlap or duplication of the added intervals.", "quantifier": "every sequence of addRow/addCol calls followed by an update", "why_tests_cant": "The count is wrong only for particular overlap patterns; only a proof over all patterns rules it out.", "anchors": ["src/matrix-view.cc:BlockIndex::cardinal", "include/hpp/constraints/matrix-view.hh:MatrixBlocks::updateIndices"]}
{"id": "C03", "title": "Interval difference is set difference", "statement": "BlockIndex::difference, in its four overloads, returns intervals covering exactly the indices of the first argument that are not in the second one, provided the first list is sorted and disjoint.", "quantifier": "every pair of interval lists, every relative position of intervals", "why_tests_cant": "Binary-search boundaries (upper_bound on ends and starts) fail only at special positions; exhaustive position enumeration is unbounded.", "anchors": ["src/matrix-view.cc:BlockIndex::difference"]}
{"id": "C04", "title": "Interval union (add, sum) is set union", "statement": "BlockIndex::add and BlockIndex::sum return intervals covering exactly the union of the indices of their arguments; adding to a sorted list keeps it sorted.", "quantifier": "every pair of intervals and every pair of interval lists", "why_tests_cant": "Insertion point mistakes show only for particular interleavings of the two lists.", "anchors": ["src/matrix-view.cc:BlockIndex::add", "src/matrix-view.cc:BlockIndex::sum"]}
{"id": "C05", "title": "Splitting and extracting intervals by rank", "statement": "BlockIndex::split(l, n) removes from l exactly its first n indices and returns them, in the same order; BlockIndex::extract(l, s, n) returns exactly the indices of rank s..s+n-1 of l, in order.", "quantifier": "every disjoint interval list and every cut position within its size", "why_tests_cant": "A cut may fall inside, at the start or at the end of any interval; the combinations are unbounded.", "anchors": ["src/matrix-view.cc:BlockIndex::split", "src/matrix-view.cc:BlockIndex::extract"]}
{"id": "C06", "title": "Overlap test answers whether two index sets share an index", "statement": "BlockIndex::overlap(a,b) returns true if and only if the two non empty intervals share at least one index; in particular it is symmetric.", "quantifier": "every pair of intervals", "why_tests_cant": "A containment case missed by the test suite makes the answer wrong.", "anchors": ["src/matrix-view.cc:BlockIndex::overlap", "src/explicit-constraint-set.cc:ExplicitConstraintSet::add"]}
{"id": "C07", "title": "Matrix views read and write exactly the selected coefficients", "statement": "Reading a (row set, column set) view returns the selected coefficients in increasing rank order; writing a matrix through the view then reading it gives that matrix back; every coefficient outside the selection is left unchanged.", "quantifier": "every matrix, every disjoint row set and column set, every written value", "why_tests_cant": "Requires all shapes of selection and all matrices.", "anchors": ["include/hpp/constraints/matrix-view.hh:MatrixBlockView", "include/hpp/constraints/matrix-view.hh:MatrixBlocks"]}
{"id": "C08", "title": "Boolean masks and interval sets are interchangeable", "statement": "Converting a vector of booleans to intervals selects exactly the positions holding true, and the intervals are sorted, disjoint and maximal.", "quantifier": "every boolean vector", "why_tests_cant": "All 2^n masks for all n.", "anchors": ["include/hpp/constraints/impl/matrix-view.hh:fromLogicalExpression", "src/explicit/relative-transformation.cc:vectorOfBoolToIntervals", "src/matrix-view.cc:BlockIndex::fromLogicalExpression"]}
{"id": "C09", "title": "Accepted explicit constraints are always compatible", "statement": "After any history of add calls on an explicit constraint set, the outputs of the accepted constraints are pairwise disjoint, no constraint depends (directly or through others) on one of its own outputs, and every accepted constraint has only equality comparison types.", "quantifier": "every history of add calls with arbitrary constraints", "why_tests_cant": "The invariant concerns every graph of constraints of any size; tests try a few chains and loops.", "anchors": ["src/explicit-constraint-set.cc:ExplicitConstraintSet::add"]}
{"id": "C10", "title": "A constraint is accepted exactly when it is compatible", "statement": "add returns a non negative index, equal to the number of constraints previously accepted, if and only if the comparison types are all equalities, no output variable is already an output, and no output variable is needed, directly or through accepted constraints, to compute an input of the new constraint. Otherwise it returns -1 (or throws when the constraint reads its own output) and leaves the set unchanged.", "quantifier": "every reachable set, every new constraint", "why_tests_cant": "Needs reachability in every dependency graph, and a state comparison after each refusal.", "anchors": ["src/explicit-constraint-set.cc:ExplicitConstraintSet::add"]}
{"id": "C11", "title": "Input/output variable sets are the exact complement and unions", "statement": "outArgs is exactly the union of the outputs of the accepted constraints, notOutArgs is exactly the remaining configuration variables, and inArgs is exactly the inputs of accepted constraints that are not outputs (same for velocity variables).", "quantifier": "every history of add calls", "why_tests_cant": "These sets drive which variables the solver may move; an index lost at some interval boundary cannot be excluded by samples.", "anchors": ["src/explicit-constraint-set.cc:ExplicitConstraintSet::add", "src/explicit-constraint-set.cc:inArgs_", "src/explicit-constraint-set.cc:notOutArgs_"]}
{"id": "C12", "title": "Evaluation order respects dependencies", "statement": "The order in which the constraints are evaluated contains each accepted constraint exactly once and each constraint comes after all the constraints computing its inputs.", "quantifier": "every history of add calls, every insertion order", "why_tests_cant": "Depth-first ordering errors appear only on particular graph shapes.", "anchors": ["src/explicit-constraint-set.cc:ExplicitConstraintSet::computeOrder", "src/explicit-constraint-set.cc:ExplicitConstraintSet::add"]}
{"id": "C13", "title": "Solving a set of explicit constraints satisfies all of them", "statement": "After solve(q) every accepted constraint holds exactly (output = f(input) + right hand side), variables that are not outputs are unchanged, the result does not depend on the initial value of the output variables, and solving again changes nothing.", "quantifier": "every reachable set, every family of functions, every configuration and right hand side", "why_tests_cant": "Quantifies over all functions and all dependency graphs.", "anchors": ["src/explicit-constraint-set.cc:ExplicitConstraintSet::solve", "src/explicit-constraint-set.cc:ExplicitConstraintSet::solveExplicitConstraint"]}
{"id": "C14", "title": "Solving does not depend on the insertion order", "statement": "Two explicit constraint sets that accepted the same constraints with the same right hand sides, in different orders, compute the same solution for every configuration.", "quantifier": "every permutation of every compatible family of constraints", "why_tests_cant": "n! orders for every family.", "anchors": ["src/explicit-constraint-set.cc:ExplicitConstraintSet::solve", "src/explicit-constraint-set.cc:ExplicitConstraintSet::computeOrder"]}
{"id": "C15", "title": "Jacobian of the explicit solution is the total derivative", "statement": "After solve and computation of the Jacobian, moving the free variables along any velocity makes the output variables move with the velocity predicted by the Jacobian: the output rows satisfy the chain rule of every constraint, rows of free variables are the identity, and columns of output variables vanish.", "quantifier": "every reachable set, every family of partial derivative matrices, every evaluation order", "why_tests_cant": "The chain rule must be composed along arbitrarily long dependency chains.", "anchors": ["src/explicit-constraint-set.cc:ExplicitConstraintSet::jacobian", "src/explicit-constraint-set.cc:ExplicitConstraintSet::computeJacobian"]}
{"id": "C16", "title": "Right hand side initialised from a configuration makes it a fixed point", "statement": "After rightHandSideFromInput(q) (equality constraints with a parametric right hand side), q satisfies every such explicit constraint and solve(q) returns q, if the constraints whose right hand side is fixed already hold at q.", "quantifier": "every reachable set, every configuration", "why_tests_cant": "Holds for all functions and dependency graphs.", "anchors": ["src/explicit-constraint-set.cc:ExplicitConstraintSet::rightHandSideFromInput"]}
{"id": "C17", "title": "Reading back the right hand side of explicit constraints", "statement": "Setting the right hand side of one explicit constraint changes nothing for the other ones, and reading back gives the value that was set (on parametric components); setting then reading the stacked right hand side vector is the identity.", "quantifier": "every set, every constraint of the set, every value", "why_tests_cant": "Offsets of arbitrarily many constraints.", "anchors": ["src/explicit-constraint-set.cc:ExplicitConstraintSet::rightHandSide", "src/explicit-constraint-set.cc:ExplicitConstraintSet::rightHandSideSize"]}
{"id": "C18", "title": "Satisfaction test of explicit constraints", "statement": "isSatisfied(q) with a threshold returns true exactly when for each constraint the squared norm of its error is strictly below the squared threshold; the stacked error vector contains each constraint error once, and the configuration produced by solve is satisfied for any positive threshold.", "quantifier": "every set, every configuration, every threshold", "why_tests_cant": "All numbers of constraints and all error values.", "anchors": ["src/explicit-constraint-set.cc:ExplicitConstraintSet::isSatisfied", "src/explicit-constraint-set.cc:ExplicitConstraintSet::isConstraintSatisfied"]}
{"id": "C19", "title": "Only equality components carry a right hand side", "statement": "After setting the right hand side of a constraint from a vector or from a configuration, the components whose comparison type is not Equality are zero, the Equality components hold the requested value, and the parameter size equals the number of Equality components.", "quantifier": "every comparison vector and every value", "why_tests_cant": "All comparison vectors of all sizes.", "anchors": ["src/implicit.cc:Implicit::rightHandSideFromConfig", "src/implicit.cc:Implicit::setInactiveRowsToZero", "src/implicit.cc:Implicit::computeParameterSize", "src/implicit.cc:Implicit::computeIndices"]}
{"id": "C20", "title": "Inequality errors vanish exactly inside the admissible region", "statement": "After comparison, the error of a Superior (resp. Inferior) component is zero exactly when the value exceeds the inequality threshold (resp. is below its opposite), the signed distance to the limit otherwise; Equality and EqualToZero components are never modified.", "quantifier": "every value vector, every comparison vector, every threshold", "why_tests_cant": "Boundary values and all component mixes.", "anchors": ["src/solver/hierarchical-iterative.cc:compare", "src/solver/hierarchical-iterative.cc:applyComparison"]}
{"id": "C21", "title": "Comparison type expressions build the announced vector", "statement": "Expressions such as 3 * EqualToZero << Equality << 2 * Superior build a vector whose length is the sum of the multiplicities and whose components are, in order, the announced types.", "quantifier": "every expression", "why_tests_cant": "All expression trees.", "anchors": ["include/hpp/constraints/comparison-types.hh"]}
{"id": "C22", "title": "Time varying right hand side is validated", "statement": "Setting a right hand side function succeeds exactly when the function takes one real parameter, its output space is the one of the constraint and all comparison types are Equality; evaluating it at s sets the right hand side to the value of the function at s; otherwise an exception is raised and the constraint is unchanged.", "quantifier": "every constraint, every function", "why_tests_cant": "All combinations of sizes, spaces and comparison vectors.", "anchors": ["src/implicit.cc:Implicit::rightHandSideFunction", "src/implicit.cc:Implicit::rightHandSideAt"]}
{"id": "C23", "title": "Rows of stacked constraints never collide", "statement": "After any history of adding constraints at any priority, constraints of one priority level occupy consecutive disjoint row ranges that together cover the level, in insertion order, the dimension of the solver is the total number of rows, and the reduced dimension is the number of rows selected by the masks of the constraints that depend on a free variable.", "quantifier": "every history of add calls with arbitrary priorities, sizes and masks", "why_tests_cant": "All numbers and sizes of constraints.", "anchors": ["src/solver/hierarchical-iterative.cc:HierarchicalIterative::add", "include/hpp/constraints/implicit-constraint-set.hh:ImplicitConstraintSet::add"]}
{"id": "C24", "title": "Right hand side of one constraint: set, get, and no interference", "statement": "rightHandSide(c, v) returns true exactly when c is in the solver, getRightHandSide(c) then returns v on Equality components and the right hand sides of all other constraints are unchanged; for a constraint not in the solver nothing changes and false is returned.", "quantifier": "every solver state reachable by add, every constraint, every vector", "why_tests_cant": "Quantifies over all other constraints and offsets.", "anchors": ["src/solver/hierarchical-iterative.cc:HierarchicalIterative::rightHandSide", "src/solver/hierarchical-iterative.cc:HierarchicalIterative::getRightHandSide"]}
{"id": "C25", "title": "Initialising the right hand side from a configuration makes it satisfy the equality constraints", "statement": "After rightHandSideFromConfig(q), the error of every Equality component at q is zero, the right hand side of EqualToZero and inequality components is unchanged (neutral).", "quantifier": "every solver state, every configuration", "why_tests_cant": "All functions and all masks.", "anchors": ["src/solver/hierarchical-iterative.cc:HierarchicalIterative::rightHandSideFromConfig", "src/implicit.cc:Implicit::rightHandSideFromConfig"]}
{"id": "C26", "title": "Stacked right hand side vector round-trip", "statement": "For any solver, rightHandSide(v) followed by rightHandSide() returns v on the Equality components, whatever the number of priority levels.", "quantifier": "every solver with any number of levels, every vector of the right size", "why_tests_cant": "Offsets across levels are only exercised by multi-level solvers with non trivial right hand sides.", "anchors": ["src/solver/hierarchical-iterative.cc:HierarchicalIterative::rightHandSide"]}
{"id": "C27", "title": "Adding a constraint keeps the right hand sides already set", "statement": "Adding a constraint to a solver leaves the right hand side of the constraints already present unchanged.", "quantifier": "every solver, every constraint", "why_tests_cant": "History dependent.", "anchors": ["src/solver/hierarchical-iterative.cc:HierarchicalIterative::add", "src/solver/hierarchical-iterative.cc:HierarchicalIterative::update"]}
{"id": "C28", "title": "A constraint can be inserted only once", "statement": "Adding to a solver a constraint whose function is already present raises an exception and leaves the solver unchanged; after any history no two constraints of the solver have equal functions; merge inserts exactly the constraints that were not present.", "quantifier": "every history of add and merge calls", "why_tests_cant": "All histories.", "anchors": ["src/solver/hierarchical-iterative.cc:HierarchicalIterative::add", "src/solver/hierarchical-iterative.cc:HierarchicalIterative::contains", "src/solver/hierarchical-iterative.cc:HierarchicalIterative::merge"]}
{"id": "C29", "title": "SUCCESS means the constraints are satisfied", "statement": "When the hierarchical solver returns SUCCESS the maximum over the constraints of the mandatory levels of the squared norm of the error at the returned configuration is at most the squared threshold; ERROR_INCREASED, MAX_ITERATION_REACHED and INFEASIBLE are returned exactly in their announced situations and the returned status is always defined.", "quantifier": "every sequence of error values produced by every line search, every number of iterations", "why_tests_cant": "All iteration histories.", "anchors": ["include/hpp/constraints/solver/impl/hierarchical-iterative.hh:HierarchicalIterative::solve"]}
{"id": "C30", "title": "The iterative solvers terminate within the iteration budget", "statement": "The hierarchical solver performs at most maxIterations iterations and the substitution solver at most max(maxIterations,2) iterations, for every behaviour of the error, and line searches perform a bounded number of steps.", "quantifier": "every error sequence", "why_tests_cant": "Non termination cannot be observed by a test.", "anchors": ["include/hpp/constraints/solver/impl/hierarchical-iterative.hh", "include/hpp/constraints/solver/impl/by-substitution.hh"]}
{"id": "C31", "title": "Saturated configurations stay within bounds", "statement": "Saturation returns a configuration within the bounds, equal to the input on coordinates already within them, idempotent, and flags each degree of freedom that is at a bound with the right sign and no other.", "quantifier": "every configuration, every lower and upper bound vectors, every joint layout", "why_tests_cant": "All coordinate values and joint layouts where several coordinates share a velocity index.", "anchors": ["src/solver/hierarchical-iterative.cc:saturate::clamp", "src/solver/hierarchical-iterative.cc:saturate::Bounds::saturate", "src/solver/hierarchical-iterative.cc:saturate::Device::saturate"]}
{"id": "C32", "title": "Line search step lengths are valid", "statement": "The fixed-sequence step length always lies in [0.2, 0.95] and increases from call to call; the backtracking step is a power of 0.7 at least 0.2 that satisfies the Armijo decrease, or the fallback value 0.2; the error-normalised step lies in its announced interval.", "quantifier": "every history of calls, every merit function", "why_tests_cant": "All histories and functions.", "anchors": ["include/hpp/constraints/solver/impl/hierarchical-iterative.hh:lineSearch"]}
{"id": "C33", "title": "The reported error is the worst mandatory level", "statement": "residualError is the maximum, over the constraints of all levels (excluding the last level if optional), of the squared norm of the error of the constraint; if any such norm is not a number the configuration is never declared satisfied.", "quantifier": "every number of levels, every error values including NaN", "why_tests_cant": "NaN propagation is rarely tested.", "anchors": ["src/solver/hierarchical-iterative.cc:HierarchicalIterative::computeError", "src/solver/hierarchical-iterative.cc:HierarchicalIterative::residualError", "include/hpp/constraints/solver/hierarchical-iterative.hh:HierarchicalIterative::isSatisfied"]}
{"id": "C34", "title": "A copied solver is independent of its original", "statement": "After copying a solver, any operation on the original leaves the observable behaviour of the copy unchanged and conversely.", "quantifier": "every solver, every sequence of operations on the original and the copy", "why_tests_cant": "Aliasing shows only for particular interleavings of operations on both objects.", "anchors": ["src/solver/hierarchical-iterative.cc:HierarchicalIterative::HierarchicalIterative(copy)", "include/hpp/constraints/implicit-constraint-set.hh"]}
{"id": "C35", "title": "Per-constraint and global satisfaction agree", "statement": "A configuration satisfies the solver if and only if each of its constraints is satisfied according to isConstraintSatisfied, up to the difference between per-level and per-constraint norms.", "quantifier": "every solver, every configuration", "why_tests_cant": "All mixes of comparison types.", "anchors": ["src/solver/hierarchical-iterative.cc:HierarchicalIterative::isConstraintSatisfied", "src/solver/hierarchical-iterative.cc:HierarchicalIterative::isSatisfied"]}
{"id": "C36", "title": "The descent direction depends only on the current values", "statement": "computeDescentDirection gives a direction that depends only on the current errors and Jacobians, whatever was computed before, whatever levels are empty; variables that are not free are not moved.", "quantifier": "every level structure including empty first level, every previous state", "why_tests_cant": "State left by an earlier call is invisible to single-shot tests.", "anchors": ["src/solver/hierarchical-iterative.cc:HierarchicalIterative::computeDescentDirection", "src/solver/hierarchical-iterative.cc:HierarchicalIterative::expandDqSmall"]}
{"id": "C37", "title": "Solving by substitution: meaning of the returned status", "statement": "When the substitution solver returns SUCCESS, the explicit constraints hold exactly and the implicit residual is at most the squared threshold; whatever the status (unless the explicit solution is undefined) the explicit constraints hold exactly; INFEASIBLE is returned only if the configuration is not satisfied.", "quantifier": "every solver, every initial configuration, every error sequence", "why_tests_cant": "All iteration histories.", "anchors": ["include/hpp/constraints/solver/impl/by-substitution.hh:BySubstitution::impl_solve"]}
{"id": "C38", "title": "Stacked right hand side of the substitution solver round-trip", "statement": "For every solver combining implicit and explicit constraints, rightHandSide(v) followed by rightHandSide() returns v on the Equality components.", "quantifier": "every combination of implicit and explicit constraints, every vector", "why_tests_cant": "Only observable with both kinds of constraints carrying different right hand sides.", "anchors": ["src/solver/by-substitution.cc:BySubstitution::rightHandSide"]}
{"id": "C39", "title": "Extracting sub-solvers does not modify the original", "statement": "extract(interval) builds a new solver with the same constraints, their time-varying right hand sides restricted to the interval, and leaves the original solver unchanged.", "quantifier": "every solver, every selection", "why_tests_cant": "Needs comparison of the whole state before and after, for every selection.", "anchors": ["src/solver/by-substitution.cc:BySubstitution::extract", "src/solver/hierarchical-iterative.cc:HierarchicalIterative::extract"]}
{"id": "C40", "title": "No constraint is lost when added to the substitution solver", "statement": "Every constraint added to the substitution solver ends up enforced exactly once: by the explicit set when it is compatible with those already there, by the iterative part otherwise; contains is true afterwards.", "quantifier": "every history of add calls", "why_tests_cant": "All histories of compatible and incompatible explicit constraints.", "anchors": ["src/solver/by-substitution.cc:BySubstitution::add"]}
{"id": "C41", "title": "Announced error size matches the error vector", "statement": "The vector filled by isSatisfied(q, error) has the size announced by errorSize.", "quantifier": "every solver", "why_tests_cant": "All combinations of implicit and explicit constraints and masks.", "anchors": ["include/hpp/constraints/solver/by-substitution.hh:BySubstitution::errorSize", "include/hpp/constraints/solver/by-substitution.hh:BySubstitution::isSatisfied"]}
{"id": "C42", "title": "Projection on the kernel of the constraints", "statement": "Projecting a velocity on the kernel of the reduced Jacobian gives a velocity the reduced Jacobian maps to zero, is idempotent, and leaves kernel velocities unchanged; pseudo-inverse and projectors built from a singular value decomposition satisfy the Penrose identities.", "quantifier": "every matrix with a singular value decomposition, every vector", "why_tests_cant": "All matrices.", "anchors": ["src/solver/by-substitution.cc:BySubstitution::projectVectorOnKernel", "include/hpp/constraints/svd.hh"]}
{"id": "C43", "title": "Function on an interval: value and Jacobian are consistent", "statement": "The function extracted on an interval [t1,t2] of a one-parameter function has at s the value f(t1+s) (or f(t1-s) when reversed) and a Jacobian that is the derivative of that value.", "quantifier": "every differentiable function, every interval, both orientations", "why_tests_cant": "All functions and parameters.", "anchors": ["src/extracted-function.hh", "src/differentiable-function.cc:DifferentiableFunction::extract"]}
{"id": "C44", "title": "Functions of a subset of the variables have a well defined Jacobian", "statement": "The Jacobian of a function of a subset of the variables (and of a difference of the same function at two places) is the inner Jacobian on the selected columns and zero elsewhere, whatever the output buffer contained; its value does not depend on inactive variables.", "quantifier": "every inner function, every interval, every previous content of the output matrix", "why_tests_cant": "Stale buffers are zero in unit tests.", "anchors": ["include/hpp/constraints/function/of-parameter-subset.hh", "include/hpp/constraints/function/difference.hh", "src/function/difference.cc"]}
{"id": "C45", "title": "Finite difference Jacobians are exact for affine functions", "statement": "Forward and central finite differences return the exact Jacobian for affine functions on vector spaces for every step and every point, never evaluate outside the announced points, and give zero columns for inactive variables.", "quantifier": "every affine function, every point, every non zero step", "why_tests_cant": "All functions and points.", "anchors": ["src/differentiable-function.cc:DifferentiableFunction::finiteDifferenceForward", "src/differentiable-function.cc:DifferentiableFunction::finiteDifferenceCentral"]}
{"id": "C46", "title": "Function equality is a congruence", "statement": "Comparing functions with == is reflexive and symmetric, and functions that compare equal have the same values everywhere.", "quantifier": "every pair of functions", "why_tests_cant": "All pairs.", "anchors": ["src/differentiable-function.cc:operator==", "include/hpp/constraints/affine-function.hh:ConstantFunction::isEqual", "src/convex-shape-contact.cc:ConvexShapeContact::isEqual", "include/hpp/constraints/generic-transformation.hh:isEqual"]}
{"id": "C47", "title": "Jacobians of symbolic expressions are derivatives", "statement": "For every expression built from points and vectors attached to joints, the centre of mass, constants, sums, differences, cross and scalar products, scalar multiplication and multiplication by a joint rotation or its transpose, the computed Jacobian times a velocity is the time derivative of the value along any motion with this velocity.", "quantifier": "every expression tree, every motion of the joints", "why_tests_cant": "All expression trees.", "anchors": ["include/hpp/constraints/symbolic-calculus.hh"]}
{"id": "C48", "title": "Cached symbolic values are always those of the current configuration", "statement": "After invalidate, computing value, cross-product matrix and Jacobian in any order and any number of times returns the same results as a fresh expression evaluated at the current configuration.", "quantifier": "every expression, every sequence of computeValue/computeCrossValue/computeJacobian/invalidate calls", "why_tests_cant": "Order-dependent cache bugs.", "anchors": ["include/hpp/constraints/symbolic-calculus.hh:CalculusBase", "include/hpp/constraints/symbolic-calculus.hh:PointInJoint"]}
{"id": "C49", "title": "Explicit and implicit relative pose constraints agree", "statement": "For a relative pose constraint between two joints, converting a right hand side from implicit to explicit form and back is the identity, and the pose of the second joint computed explicitly satisfies the implicit constraint with the corresponding right hand side, for every chain of parent transforms.", "quantifier": "every robot configuration, every frames, every right hand side", "why_tests_cant": "All poses.", "anchors": ["src/explicit/relative-pose.cc", "src/explicit/relative-transformation.cc"]}
{"id": "C50", "title": "Explicit relative pose: input variables are those that matter", "statement": "The input variables of an explicit relative pose constraint are exactly the variables of the joints lying on the kinematic path between the two joints, apart from the output joint; the value does not depend on any other variable and the output variables are never inputs when joint 1 is not a descendant of joint 2.", "quantifier": "every kinematic tree, every pair of joints", "why_tests_cant": "All trees.", "anchors": ["src/explicit/relative-transformation.cc:RelativeTransformation::create", "src/explicit/input-configurations.hh"]}
{"id": "C51", "title": "Active variables of pose functions", "statement": "The variables reported as active by a (relative) position/orientation/transformation function are exactly those of the joints between the two joints, and the value is unchanged when any other variable changes.", "quantifier": "every kinematic tree, every pair of joints", "why_tests_cant": "All trees.", "anchors": ["src/generic-transformation/helper.hh:setActiveParameters"]}
{"id": "C52", "title": "Pose functions: masked value and masked Jacobian correspond", "statement": "Whatever the mask and whatever the optimised code path taken when frames are trivial, component k of the value is the k-th selected component of the pose of frame 2 in frame 1, and row k of the Jacobian is the derivative of component k.", "quantifier": "every mask, every frames, every motion", "why_tests_cant": "All masks and all optimisation flags.", "anchors": ["src/generic-transformation/helper.hh", "src/generic-transformation.cc"]}
{"id": "C53", "title": "Convex polygon: inside test and signed distance agree", "statement": "A point is inside a convex shape if and only if its signed distance is not positive; the distance is the distance to the boundary; reversing a shape flips its normal and keeps its points.", "quantifier": "every convex polygon, every point", "why_tests_cant": "All polygons.", "anchors": ["include/hpp/constraints/convex-shape.hh:ConvexShape"]}
{"id": "C54", "title": "Contact selection picks the best pair", "statement": "The pair of surfaces selected by a contact constraint is a floor and an object surface of minimal squared distance over all pairs, the first one in floor-major order in case of equality, and the pair is reported as in contact exactly if the projection lies inside the floor surface.", "quantifier": "every family of surfaces, every configuration", "why_tests_cant": "All families.", "anchors": ["src/convex-shape-contact.cc:ConvexShapeContact::selectConvexShapes"]}
{"id": "C55", "title": "Contact right hand side identifies the selected surfaces", "statement": "The pair of surfaces and the pose encoded in the right hand side of the complement of a contact constraint can be decoded exactly: decoding the encoded value returns the indices of the pair and the relative pose parameters.", "quantifier": "every pair of surfaces, every offset smaller than the encoding radius", "why_tests_cant": "All real offsets.", "anchors": ["src/convex-shape-contact.cc:ConvexShapeContactComplement::impl_compute", "src/convex-shape-contact.cc:ConvexShapeContactComplement::computeRelativePoseRightHandSide"]}
{"id": "C56", "title": "Implicit formulation of an explicit constraint", "statement": "The implicit function associated with an explicit constraint vanishes at q exactly when the output variables of q equal f of the input variables (on vector spaces its Jacobian is identity on output columns, minus the Jacobian of f on input columns and zero elsewhere), for every number of factors in the output space.", "quantifier": "every function, every index sets, every number of Lie group factors in the output", "why_tests_cant": "Multi-factor outputs are not covered by tests.", "anchors": ["src/explicit/implicit-function.cc"]}
{"id": "C57", "title": "A locked joint locks exactly its joint", "statement": "A locked joint constraint, however it is created, computes as outputs exactly the configuration variables of the joint (or extra degrees of freedom) with the requested value, and depends on no input variable.", "quantifier": "every joint, every index, every value", "why_tests_cant": "All joints and partial lock indices.", "anchors": ["src/locked-joint.cc:LockedJoint"]}
{"id": "C58", "title": "Jlog is the inverse of the right Jacobian of the exponential", "statement": "The matrix computed by JlogSO3 for a rotation vector is the inverse of the right Jacobian of the exponential map for every rotation vector of norm in (0, pi) and tends to the identity at zero.", "quantifier": "every rotation vector", "why_tests_cant": "All real vectors.", "anchors": ["include/hpp/constraints/tools.hh:JlogSO3"]}
{"id": "C59", "title": "Static stability by quadratic programming: value and Jacobian", "statement": "The value is the squared norm of the residual wrench, hence non negative and zero exactly if gravity is balanced by the contact forces, and the Jacobian is the derivative of this value for fixed contact forces.", "quantifier": "every contact geometry, every force vector, every motion", "why_tests_cant": "All geometries.", "anchors": ["src/qp-static-stability.cc:QPStaticStability"]}
{"id": "C60", "title": "Distance between points: value and Jacobian", "statement": "The distance between two points attached to bodies (or the world) is the norm of the difference of their world positions, its Jacobian is the derivative of this value, and neither depends on previously evaluated configurations.", "quantifier": "every motion, every history of evaluations on the shared robot", "why_tests_cant": "History dependent caches.", "anchors": ["src/distance-between-points-in-bodies.cc", "src/distance-between-bodies.cc"]}
{"id": "C61", "title": "Configuration constraint: gradient of the weighted squared distance", "statement": "The value of the configuration constraint is half the weighted sum of squared differences to the goal and its Jacobian is the gradient of this value for all non negative weights, on vector spaces and on Lie groups.", "quantifier": "every configuration, every goal, every weights", "why_tests_cant": "All weights and spaces.", "anchors": ["src/configuration-constraint.cc"]}
{"id": "C62", "title": "Stacked functions", "statement": "A set of functions has as value, Jacobian and active parameters the concatenation of the values, the concatenation of the Jacobians and the union of the active parameters of its members, in insertion order.", "quantifier": "every family of functions", "why_tests_cant": "All families.", "anchors": ["include/hpp/constraints/differentiable-function-set.hh"]}
{"id": "C63", "title": "Relative centre of mass Jacobian", "statement": "The Jacobian of the relative centre of mass function (with any mask) is the derivative of its value along every motion.", "quantifier": "every motion, every mask", "why_tests_cant": "All motions.", "anchors": ["src/relative-com.cc"]}
{"id": "C64", "title": "Sub-manifold inclusion and level extraction", "statement": "definesSubmanifoldOf(other) returns true only if every constraint of other is also in this solver, and extraction keeps exactly the active rows.", "quantifier": "every pair of solvers", "why_tests_cant": "All pairs.", "anchors": ["src/solver/hierarchical-iterative.cc:HierarchicalIterative::definesSubmanifoldOf"]}
{"id": "C65", "title": "Symbolic functions with a mask", "statement": "A symbolic function built with a mask outputs exactly the selected components of the expression, and its output size is the number of selected components.", "quantifier": "every expression, every mask, every previous content of the output buffers", "why_tests_cant": "All masks.", "anchors": ["include/hpp/constraints/symbolic-function.hh"]}
{"id": "C66", "title": "Saved and reloaded solver", "statement": "Saving a solver and loading it gives a solver with the same constraints at the same priority levels, the same thresholds and right hand sides.", "quantifier": "every solver", "why_tests_cant": "All solver contents.", "anchors": ["src/solver/hierarchical-iterative.cc:HierarchicalIterative::save", "src/solver/hierarchical-iterative.cc:HierarchicalIterative::load"]}
{"id": "C67", "title": "Element-wise operations on views", "statement": "Combining a view with a matrix, a matrix with a view, or two views with an element-wise operation produces the matrix whose coefficient (k,l) combines the coefficients of rank (k,l) of the operands.", "quantifier": "every operation, every interval lists without out of range index, every matrices", "why_tests_cant": "Depends on relative position of interval lists; unbounded.", "anchors": ["include/hpp/constraints/impl/matrix-view-operation.hh"]}
{"id": "C68", "title": "Dependency matrix of explicit constraints", "statement": "In a set of explicit constraints, entry (constraint i, velocity variable k) of the dependency matrix is positive exactly when k is not computed by a constraint of the set and constraint i depends on k, directly or through other constraints of the set.", "quantifier": "every reachable explicit constraint set, every constraint, every variable", "why_tests_cant": "Reachability in unbounded graphs.", "anchors": ["src/explicit-constraint-set.cc:ExplicitConstraintSet::computeOrder", "src/explicit-constraint-set.cc:ExplicitConstraintSet::inOutDependencies"]}
{"id": "C69", "title": "Masked components are ignored, and only them", "statement": "The rows kept by a constraint are exactly those its mask selects (all of them for an empty mask); setting the inactive rows to zero zeroes the other rows and leaves the kept ones unchanged; in a stack of constraints the kept rows are those selected by the concatenation of the masks, after any sequence of additions.", "quantifier": "every mask, every comparison vector, every sequence of additions", "why_tests_cant": "The intervals are recomputed without clearing the previous ones at each addition: correctness depends on the whole history.", "anchors": ["src/implicit.cc:Implicit::computeActiveRows", "src/implicit.cc:Implicit::setInactiveRowsToZero", "include/hpp/constraints/implicit-constraint-set.hh:ImplicitConstraintSet::add"]}
{"id": "C70", "title": "Masked rows do not count in the error of the solver", "statement": "A row of a constraint out of its mask contributes nothing to the error computed by the solver, whatever its comparison type.", "quantifier": "every solver, every configuration, every masked row", "why_tests_cant": "Every mask and comparison type.", "anchors": ["src/solver/hierarchical-iterative.cc:HierarchicalIterative::computeValue", "src/solver/hierarchical-iterative.cc:applyComparison"]}
{"id": "C71", "title": "Active variables of a solver", "statement": "The active (derivative) parameters reported by a solver are those that are active for the function of at least one of its constraints.", "quantifier": "every solver built by any sequence of additions", "why_tests_cant": "Any number of levels, some of them possibly empty.", "anchors": ["src/solver/hierarchical-iterative.cc:HierarchicalIterative::activeParameters", "src/solver/hierarchical-iterative.cc:HierarchicalIterative::activeDerivativeParameters"]}
{"id": "C72", "title": "Variables at a bound that are pushed outwards are blocked", "statement": "computeSaturation sets to zero exactly the columns of the reduced Jacobian of each level of the variables that are at a bound and that the steepest descent direction of the error of the level moves outwards; with one level the descent direction then does not move these variables.", "quantifier": "every Jacobian, error and vector of flags", "why_tests_cant": "The sign convention of the flags and of the error interact; all combinations of signs matter.", "anchors": ["src/solver/hierarchical-iterative.cc:HierarchicalIterative::computeSaturation"]}
{"id": "C73", "title": "Rows kept in the reduced Jacobian of the solver by substitution", "statement": "computeActiveRowsOfJ of BySubstitution keeps exactly the active rows of the constraints whose value depends on a free variable, directly or through the outputs of the explicit constraints; the rows left out have a zero derivative with respect to the free variables.", "quantifier": "all sets of explicit and implicit constraints, all dependency patterns", "why_tests_cant": "dependencies through chains of explicit constraints of any length and any interleaving of free and output variables", "anchors": ["src/solver/by-substitution.cc:BySubstitution::computeActiveRowsOfJ"]}
{"id": "C74", "title": "Reduced Jacobian of the solver by substitution", "statement": "After updateJacobian, the reduced Jacobian of each level multiplied by a velocity of the free variables equals the Jacobian of the level multiplied by the velocity of all the variables obtained with the explicit constraints.", "quantifier": "all configurations, all velocities, all sets of constraints", "why_tests_cant": "equality of linear maps; tests compare with finite differences at random configurations up to a tolerance", "anchors": ["src/solver/by-substitution.cc:BySubstitution::updateJacobian"]}
{"id": "C75", "title": "Variables handled by the iterative part", "statement": "implicitDof returns exactly the indices of the velocity variables that are not outputs of explicit constraints and on which the implicit constraints depend, directly or through explicit constraints.", "quantifier": "all sets of explicit and implicit constraints, all dependency patterns", "why_tests_cant": "dependencies through chains of explicit constraints of any length", "anchors": ["src/solver/by-substitution.cc:BySubstitution::implicitDof"]}
{"id": "C76", "title": "Logarithms invert the exponential", "statement": "logSO3 returns the constant angular velocity, and logSE3 the constant velocity, in the moving frame, that bring the identity to the given rotation or transform in unit time; the norm of the angular part is the angle of the rotation.", "quantifier": "all rotations and rigid body transforms", "why_tests_cant": "all real matrices; branches close to 0 and to pi", "anchors": ["include/hpp/constraints/tools.hh:logSO3", "include/hpp/constraints/tools.hh:logSE3"]}
{"id": "C77", "title": "Jacobian of the logarithm on SE(3)", "statement": "The matrix computed by JlogSE3, multiplied by the velocity of a rigid body transform in the moving frame, is the derivative of logSE3.", "quantifier": "all transforms of angle less than pi, all velocities", "why_tests_cant": "a derivative at every point; coefficients of the formula are switched at thresholds", "anchors": ["include/hpp/constraints/tools.hh:JlogSE3"]}
{"id": "C78", "title": "Jacobian of the explicit relative pose", "statement": "The Jacobian of the function that computes the pose of a freeflyer joint from the other joints is, along every motion of the input variables, the velocity of the computed pose, linear and angular, in the moving frame.", "quantifier": "all robots, all pairs of joints, all frames, all configurations and velocities", "why_tests_cant": "a derivative at every point, for kinematic trees of every shape", "anchors": ["src/explicit/relative-transformation.cc:RelativeTransformation::impl_jacobian"]}
{"id": "C79", "title": "Center of mass between the feet: values, Jacobian, history", "statement": "The components of the function are the selected ones among: height of the center of mass minus the reference height, vertical component in the reference joint frame of the cross product of (center of mass minus middle of the feet) and (right minus left), and the scalar products of the last vector with the vectors from each foot to the center of mass; each row of the Jacobian is the derivative of the corresponding component; neither depends on previous evaluations; the third component is non negative and the fourth one non positive exactly if the center of mass projects on the segment between the feet.", "quantifier": "every motion, mask and history of evaluations", "why_tests_cant": "All motions and histories of a shared lazily evaluated expression graph.", "anchors": ["src/com-between-feet.cc:ComBetweenFeet"]}
{"id": "C80", "title": "Active parameters of the configuration constraint", "statement": "A parameter of the configuration constraint is declared inactive exactly if it belongs to a joint all the weights of which are zero, and the value of the function does not depend on the inactive parameters.", "quantifier": "every robot (list of joints), weight vector and pair of configurations", "why_tests_cant": "All robots and weights.", "anchors": ["src/configuration-constraint.cc:computeActiveParams"]}
{"id": "C81", "title": "Matrices of expressions: value, Jacobian products, pseudo-inverse", "statement": "After invalidation and whatever methods are called in whatever order for the same state of the robot, a matrix of expressions computes the matrix of the values of its elements and its Moore-Penrose pseudo-inverse; once its Jacobian is computed, jacobianTimes and jacobianTransposeTimes map the velocity to the derivative of the product of the matrix and of its transpose by a constant vector; and computePseudoInverseJacobian gives the derivative of the product of the pseudo-inverse by a constant vector wherever the rank is locally constant.", "quantifier": "every matrix of expressions that may share nodes, every call sequence, every motion, every right hand side", "why_tests_cant": "All motions, sequences of lazy evaluations and shared expression graphs; a derivative of a pseudo-inverse at every point.", "anchors": ["include/hpp/constraints/symbolic-calculus.hh:MatrixOfExpressions"]}
{"id": "C82", "title": "Static stability: residual wrench, minimality and Jacobian", "statement": "The six last components of StaticStability are the resultant and (up to sign) the moment about the center of mass of the weight and of the forces given by the first components; no forces along the normals give a smaller residual, so they are zero exactly if some forces along the normals balance gravity; and the Jacobian is the derivative of all the components wherever the rank of the wrench matrix is locally constant and no component of the least-squares forces is at a switching value.", "quantifier": "every list of contacts, motion and history of calls", "why_tests_cant": "All contact sets and motions; derivative through a pseudo-inverse and a projection on its kernel.", "anchors": ["src/static-stability.cc:StaticStability"]}
{"id": "C83", "title": "Jacobians of the contact functions", "statement": "Around every configuration where the nearest pair of a floor and of an object surface is unique and the projection of the center of the object surface is not on the outline of the floor, the contact function, its complement and the function made of both are defined and differentiable along every motion, and their Jacobians, whatever the previous content of the temporary matrices, are their derivatives.", "quantifier": "every list of convex floors and of object surfaces, every motion, margin", "why_tests_cant": "A derivative of a function defined by cases and by a minimisation, at every configuration.", "anchors": ["src/convex-shape-contact.cc:ConvexShapeContact::impl_jacobian", "src/convex-shape-contact.cc:ConvexShapeContactComplement::impl_jacobian"]}
{"id": "C84", "title": "Configurations that satisfy a contact constraint", "statement": "The value of the contact function is defined if there are floors and objects; it is zero exactly if the center of the nearest object surface projects inside the floor polygon, at a distance of the plane equal to the margin and, for a polygon, if the normals of both surfaces are opposite; for a point without condition on the orientation and for a segment if the segment is parallel to the floor.", "quantifier": "every list of convex floors and of object surfaces (points, segments, polygons), every position of the joints, margin", "why_tests_cant": "An equivalence over all positions and surfaces.", "anchors": ["src/convex-shape-contact.cc:ConvexShapeContact::impl_compute"]}
{"id": "C85", "title": "Contact points", "statement": "computeContactPoints returns one element for each pair of an object surface and of a floor such that the center of the object surface projects inside the floor and lies at most at the given margin of the plane of the floor, with the points of the object surface and the normal of the floor in their joints.", "quantifier": "every list of convex floors and of object surfaces, every position of the joints, margin", "why_tests_cant": "A characterisation over all positions and surfaces.", "anchors": ["src/convex-shape-contact.cc:ConvexShapeContact::computeContactPoints"]}
{"id": "C86", "title": "Explicit contact: solution, held pose, inputs and Jacobian", "statement": "An explicit contact constraint can be built exactly if the objects are all fixed to one freeflyer joint that is attached to no other joint; its inputs are the variables of the joints between the joints of the floors and the joint of the objects. Setting the right hand side from a configuration, then moving the inputs and computing the outputs keeps the pose of the object with respect to the floor; the configuration so obtained satisfies the implicit constraint with the same right hand side; and the Jacobian of the output value is the velocity of the computed pose.", "quantifier": "every robot, lists of floors and objects, margins, right hand sides, configurations", "why_tests_cant": "All kinematic trees, surfaces and configurations.", "anchors": ["src/explicit/convex-shape-contact.cc:ConvexShapeContact"]}
{"id": "C87", "title": "Jacobian of the output value of the explicit relative pose", "statement": "For every right hand side, the matrix returned by jacobianOutputValue is, along every motion of the input variables, the velocity of the output value in the moving frame.", "quantifier": "all robots, pairs of joints, frames, right hand sides, configurations and velocities", "why_tests_cant": "a derivative at every point, for kinematic trees of every shape", "anchors": ["src/explicit/relative-pose.cc:RelativePose::jacobianOutputValue"]}
{"id": "C88", "title": "Manipulability", "statement": "The value is the opposite of the decimal logarithm of the square root of the determinant of J J^T, where J is the Jacobian of the analysed function restricted to its active parameters, or zero if this is negative; it is great at singular configurations; it does not depend on the singular value decomposition that is used; and the Jacobian is the central difference of the value for the active parameters and zero for the other ones.", "quantifier": "every function, configuration and set of active parameters", "why_tests_cant": "All matrices; a spectral quantity.", "anchors": ["src/manipulability.cc:Manipulability::impl_compute", "src/manipulability.cc:Manipulability::impl_jacobian"]}
{"id": "C89", "title": "Affine and constant functions, identity", "statement": "The Jacobians of affine functions, constant functions and identity are their derivatives, and a parameter is declared active exactly if the value depends on it.", "quantifier": "every matrix, vector and motion", "why_tests_cant": "All matrices and motions.", "anchors": ["include/hpp/constraints/affine-function.hh"]}
{"id": "C90", "title": "Slope of the error along the descent direction", "statement": "The slope computed by the backtracking line search is half the derivative, along the direction computed by the solver, of the sum of the squared errors of all levels; it is never positive, it is zero only at critical points, and small enough steps then decrease the error that is compared by the line search sufficiently.", "quantifier": "every stack of levels, Jacobian and error, every exact singular value decomposition", "why_tests_cant": "All matrices and errors; a derivative.", "anchors": ["include/hpp/constraints/solver/impl/hierarchical-iterative.hh:Backtracking::computeLocalSlope", "src/solver/hierarchical-iterative.cc:HierarchicalIterative::computeDescentDirection"]}
{"id": "C91", "title": "Linear constraints are solved", "statement": "If the constraints are linear and have a common solution, then whatever the number of levels and the line search the error decreases at a geometric rate, ERROR_INCREASED is never returned, constant steps reach an exact solution in one iteration, and the solver returns SUCCESS if enough iterations are allowed.", "quantifier": "every list of levels of linear constraints, initial configuration, thresholds, the four line searches, every exact singular value decomposition", "why_tests_cant": "All linear systems and a number of iterations that is not bounded.", "anchors": ["include/hpp/constraints/solver/impl/hierarchical-iterative.hh:HierarchicalIterative::solve", "src/solver/hierarchical-iterative.cc:HierarchicalIterative::computeDescentDirection"]}
{"id": "C92", "title": "Configurations returned by the solvers are within the bounds", "statement": "Starting from a configuration within the bounds of the robot, the configuration returned by solve is within the bounds, whatever the constraints, the line search and the returned status, and whether or not explicit constraints are substituted.", "quantifier": "every saturation object with consistent bounds, constraint, line search, number of iterations and initial configuration", "why_tests_cant": "All executions of an iterative method, including failures.", "anchors": ["src/solver/hierarchical-iterative.cc:HierarchicalIterative::integrate", "include/hpp/constraints/solver/by-substitution.hh:BySubstitution::integrate", "include/hpp/constraints/solver/impl/hierarchical-iterative.hh:HierarchicalIterative::solve"]}
{"id": "C93", "title": "The descent direction is the shortest one and does not depend on the decomposition", "statement": "Among the directions that minimise the linearised errors of the levels in order of priority, computeDescentDirection returns the one of minimal norm; hence the result does not depend on the singular value decomposition that is used (signs and order of singular vectors, basis of the kernel) nor on previous iterations.", "quantifier": "every list of levels, Jacobian and error, every exact singular value decomposition", "why_tests_cant": "All matrices; independence from a numerical library.", "anchors": ["src/solver/hierarchical-iterative.cc:HierarchicalIterative::computeDescentDirection", "include/hpp/constraints/svd.hh:getV2"]}
{"id": "C94", "title": "Local convergence on nonlinear constraints", "statement": "If the initial error is small enough with respect to the curvature of the constraints and to the conditioning of their Jacobians, the solver with any of the four line searches and without optional level decreases the error at a geometric rate (quadratically with constant steps), stays close to the initial configuration, never returns ERROR_INCREASED, and returns SUCCESS if enough iterations are allowed.", "quantifier": "every configuration space, list of levels of nonlinear constraints, line search with step lengths in [bmin, 1], exact singular value decomposition, threshold and number of iterations", "why_tests_cant": "All nonlinear systems; a convergence rate.", "anchors": ["include/hpp/constraints/solver/impl/hierarchical-iterative.hh:HierarchicalIterative::solve", "src/solver/hierarchical-iterative.cc:HierarchicalIterative::computeDescentDirection"]}
{"id": "C95", "title": "Convergence of the solver by substitution", "statement": "The solver by substitution behaves, until it returns, like the iterations without explicit constraints on the free variables alone, in the implicit constraints where the solution of the explicit constraints has been substituted: the reduced Jacobian it computes is the derivative of these functions. So linear constraints are solved whenever possible, and nonlinear ones whenever the initial error is small enough, in which case SUCCESS is returned, all explicit constraints hold exactly and the squared error of each implicit constraint is at most the threshold.", "quantifier": "every set of explicit constraints accepted by the solver and defined everywhere, list of levels of implicit constraints, line search with step lengths in [bmin, 1], exact singular value decomposition, initial configuration, threshold and number of iterations", "why_tests_cant": "All explicit and implicit functions; a convergence statement that involves the substitution, the reduced Jacobian, the descent direction and the line search at once.", "anchors": ["include/hpp/constraints/solver/impl/by-substitution.hh:BySubstitution::impl_solve", "include/hpp/constraints/solver/by-substitution.hh:BySubstitution::integrate", "src/solver/by-substitution.cc:BySubstitution::updateJacobian", "src/explicit-constraint-set.cc:ExplicitConstraintSet::solve"]}
{"id": "C96", "title": "dependsOnRelPoseBetween returns the joints whose relative pose determines the value", "statement": "The pair of joints returned by dependsOnRelPoseBetween is in increasing order of joint index, and, when it is not the null pair, two configurations with the same relative pose of these joints give the function the same value: for position, orientation and transformation functions (absolute and relative, vector or Lie group values), for contact functions, their complements and combinations, for explicit relative transformations and for the implicit form of constant explicit functions. The contact functions return the null pair when the surfaces of a kind are missing or on different joints.", "quantifier": "for all robots (kinematic trees), functions, surfaces and pairs of configurations", "why_tests_cant": "Tests compare the returned names on one robot; whether the value depends on nothing else than the relative pose requires comparing all pairs of configurations.", "anchors": ["include/hpp/constraints/generic-transformation.hh:310-321", "include/hpp/constraints/convex-shape-contact.hh:167-202", "include/hpp/constraints/explicit/relative-transformation.hh:91-102", "src/explicit/implicit-function.cc:298-327"]}
{"id": "C97", "title": "doesConstrainRelPoseBetween returns only joints whose relative pose is fixed", "statement": "When Implicit::doesConstrainRelPoseBetween returns a pair of joints, all the configurations that satisfy the constraint for one right hand side have the same relative pose of these joints; it does so for transformation constraints with six active rows, for constant explicit constraints on a joint with six degrees of freedom; LockedJoint returns the parent of the locked joint and the joint, whose relative pose is fixed. Conversely a constraint that fixes the relative pose is reported.", "quantifier": "for all robots, joints, frames, masks, comparison types, right hand sides and pairs of configurations", "why_tests_cant": "Quantifies over all pairs of solutions of a nonlinear equation.", "anchors": ["src/implicit.cc:231-244", "include/hpp/constraints/implicit.hh:219", "src/locked-joint.cc:213-230", "src/explicit/implicit-function.cc:298-327"]}
{"id": "C98", "title": "A constraint survives a round trip through an archive", "statement": "An Implicit constraint written with serialize and read into a new object has the same function, right hand side function, comparison types, mask, active and inactive rows, equality and inequality indices and number of parameters, compares equal to the original, and can be used like it: rightHandSideFromConfig and rightHandSideAt are defined and give the same values.", "quantifier": "for all functions, comparison types, masks, and all histories of calls before the constraint is written", "why_tests_cant": "Tests serialize a few constraints and compare them with ==, which does not look at the buffers; the failure is an out of bounds write that does not always crash.", "anchors": ["src/implicit.cc:86-93", "src/implicit.cc:114-161", "src/implicit.cc:212-220", "src/implicit.cc:246-260", "include/hpp/constraints/implicit.hh:283-301"]}
{"id": "C99", "title": "A solver by substitution survives a round trip through an archive", "statement": "Reading the archive written by BySubstitution::save inserts all constraints again without exception and gives a solver with the same constraints, each in the same part (explicit or iterative), the same evaluation order, input, output and free variables, levels, priorities, ranks, dimensions and parameters; it accepts the same configurations and can be used to solve.", "quantifier": "for all solvers built by any history of insertions, changes of right hand sides, free variables and parameters, whose functions have the same input sizes", "why_tests_cant": "Tests read a solver back and compare a printout or the number of constraints; the explicit threshold and the scratch matrix are private members.", "anchors": ["src/solver/by-substitution.cc:58-61", "src/solver/by-substitution.cc:170-180", "src/solver/by-substitution.cc:384-402", "src/solver/hierarchical-iterative.cc:872-922", "include/hpp/constraints/explicit-constraint-set.hh:507-531", "include/hpp/constraints/solver/by-substitution.hh:265-271"]}
{"id": "C100", "title": "Pose of a joint as a symbolic expression", "statement": "The value of a JointFrame expression is the translation of the joint followed by the logarithm of its rotation, and the Jacobian of the symbolic function built on it (selected rows, zero columns for the extra configuration space) is the derivative of the selected components along every motion of the robot, whatever the history of the expression (order and number of computations, former configurations, copies).", "quantifier": "for all robots and motions (rotation equal to the identity or of angle in (1e-6, pi)), all masks, all contents of the expression and of the buffers, all sequences of calls", "why_tests_cant": "tests evaluate the expression at a few random configurations, right after construction, and compare with finite differences whose error hides deviations of the order of 1e-6; they never copy an expression", "anchors": ["include/hpp/constraints/symbolic-calculus.hh:816-862", "include/hpp/constraints/symbolic-function.hh:82-155", "include/hpp/constraints/tools.hh:59-153"]}
{"id": "C101", "title": "Distance between bodies: objects taken into account", "statement": "The constructors of DistanceBetweenBodies throw exactly when a collision pair is missing in the model of the robot; otherwise the value of the function is the distance between the inner objects of the body and the other objects (all of them, and only them), and its Jacobian is the derivative of this distance.", "quantifier": "for all models (lists of collision pairs), bodies, lists of objects, configurations and motions; hpp-fcl given by its contract", "why_tests_cant": "there is no test of this class; the result depends on the order in which pinocchio stores the objects of the pairs, that a test on one robot would fix", "anchors": ["src/distance-between-bodies.cc:41-60", "src/distance-between-bodies.cc:80-164"]}
{"id": "C102", "title": "Comparison of constraints", "statement": "operator== of constraints is symmetric whatever the classes of the two operands (implicit, explicit, locked joint), transitive, true for a constraint and its copies, and true for two explicit constraints created with the same arguments; two constraints are equal exactly when they have the same comparison types, right hand side size, class, equal functions, and the same explicit function, inputs and outputs (same name, rank and space for locked joints).", "quantifier": "all memories of functions, all constraints of the three classes, all sequences of constructions", "why_tests_cant": "The comparison calls virtual functions of both operands, with a flag, so that each pair of classes takes another path; tests compare a few constraints of the same class.", "anchors": ["src/implicit.cc:40-43", "src/implicit.cc:181-188", "src/explicit.cc:127-141", "src/locked-joint.cc:198-211"]}
{"id": "C103", "title": "Setters of generic transformations keep flags, active parameters and reference consistent", "statement": "After any sequence of calls to the setters of a function Position, Orientation, Transformation (absolute or relative) the joints and frames are the last ones given, the active parameters are exactly the variables of the joints between the current joints, the function does not depend on the other variables, and its value and Jacobian are those of the current frames; after reference(M) the relative pose is the identity exactly where the pose of joint 2 in joint 1 is M; the four object builders agree with this. The reference that is read is the one that was set (refuted: it is the inverse). Positions are exact (refuted below 1e-12, bounded by 3e-12 (1+|x|+|y|+|z|)).", "quantifier": "all robots, all sequences of setter calls, all frames, all joint poses", "why_tests_cant": "Tests create each function once with frames far from the identity; they change neither joints nor frames afterwards, and never read the reference back.", "anchors": ["include/hpp/constraints/generic-transformation.hh:44-86", "include/hpp/constraints/generic-transformation.hh:229-276", "src/generic-transformation.cc:80-86", "src/generic-transformation.cc:109-217", "src/generic-transformation/helper.hh:343-429"]}
{"id": "C104", "title": "Projection of velocities and configurations on the tangent space of the constraints", "statement": "projectOnKernel(from, to) moves only the free variables, along the kernel of the reduced Jacobian, to the configuration of from + kernel closest to `to`; it is idempotent, stays within the bounds, and keeps the affine constraints satisfied by from. The projection of a velocity is tangent to all the constraints (refuted with explicit constraints: the components of their outputs are set to 0; it holds exactly when the outputs do not move).", "quantifier": "all sizes, all Jacobians with an exact decomposition, all bounds, all configurations", "why_tests_cant": "There is no test with both explicit constraints and projection; minimality and idempotence are statements over all configurations.", "anchors": ["src/solver/by-substitution.cc:258-303", "include/hpp/constraints/solver/by-substitution.hh:137-160"]}
{"id": "C105", "title": "Active parameters of contact functions and of the implicit functions of explicit constraints", "statement": "The parameters that ConvexShapeContact declares active after construction are exactly the variables of the joints between the joint of a floor surface and the joint of an object surface, over all pairs of surfaces, for configurations and for velocities. The implicit function of an explicit constraint declares exactly its input and output variables. For these functions, for the complement and for the hold function, two configurations that agree on the active parameters give the same value, the same exception or the same undefined behaviour. The columns of the Jacobian of the implicit function that are not active are zero.", "quantifier": "all kinematic trees, all lists of surfaces on any joints (several floor joints and several object joints), all configurations; all interval lists", "why_tests_cant": "Tests use one robot and surfaces on one joint; solvers skip the inactive columns, so a missing flag gives silently wrong reduced systems only for particular pairs of joints.", "anchors": ["src/convex-shape-contact.cc:41-110", "src/convex-shape-contact.cc:342-370", "src/convex-shape-contact.cc:477-488", "src/explicit/implicit-function.cc:164-207", "src/generic-transformation/helper.hh:502-530"]}
{"id": "C106", "title": "Functions saved in an archive and loaded again are the same functions", "statement": "Writing a function in an archive does not change it, and reading the archive, whatever else it contains, into an object built by the default constructor gives back a function with the same members (base class, joints, frames, flags, active parameters, masks, intervals, Jacobian blocks, sizes of the buffers), hence the same value and Jacobian everywhere. This holds for affine functions, constant functions, identities, relative centers of mass, explicit relative transformations and implicit functions of explicit constraints. It is false for generic transformations (position, orientation, relative or not, ...): the indices of the selected coordinates are not written, so that the function that is loaded can not be evaluated.", "quantifier": "all objects of each class, after any sequence of calls of setters, all archives before and after the object, all masks, all configurations", "why_tests_cant": "The only test of the serialization of these functions compares printed strings, which do not show the indices; the functions that are loaded are never evaluated.", "anchors": ["src/differentiable-function.cc:258-272", "src/affine-function.cc:37-63", "src/relative-com.cc:175-187", "src/generic-transformation.cc:184-231", "src/generic-transformation.cc:279-292", "src/generic-transformation.cc:328-356", "src/explicit/implicit-function.cc:272-295", "src/explicit/relative-transformation.cc:245-262", "src/serialization.hh:7-14", "include/hpp/constraints/serialization.hh:40-57"]}
{"id": "C107", "title": "Columns of the Jacobian that are declared inactive are zero", "statement": "For generic transformations after any sequence of calls of the setters that sets a joint, and for contact functions built with any surfaces, each column of the Jacobian that is not declared active (activeDerivativeParameters) is zero: in every configuration, for every mask, every frame, every selection of surfaces, and whatever the initial content of the temporary matrices. The translation of the common ancestors of both joints cancels in the formulas of the code, including when flags say that frames are the identity.", "quantifier": "all robots, all pairs of joints, all frames and masks, all sequences of calls of setters, all surfaces, all configurations, all columns", "why_tests_cant": "Tests check flags for a few pairs of joints and compare Jacobians to finite differences with a tolerance; the solvers discard rows and columns from the flags.", "anchors": ["include/hpp/constraints/generic-transformation.hh:232-273", "src/generic-transformation.cc:160-183", "src/generic-transformation/helper.hh:250-330", "src/generic-transformation/helper.hh:450-530", "src/convex-shape-contact.cc:90-110", "src/convex-shape-contact.cc:225-282"]}
{"id": "C108", "title": "Saturation does not spoil the descent, and stops the solver only where bounds forbid progress", "statement": "One level, configuration space a vector space, configuration within the bounds, bounds with an interior: the direction computed after computeSaturation is zero exactly if no velocity that remains within the bounds decreases the squared error at first order, and a saturated step of any positive length leaves the configuration unchanged exactly in the same case. Otherwise every small enough saturated step follows a velocity that remains within the bounds, along which the slope of the error is negative and at most the one of the direction computed; for differentiable constraints the error decreases. For affine constraints, a configuration where the direction vanishes or the step stalls minimises the error over all configurations within the bounds, so it satisfies the constraints if a solution exists within the bounds. The property fails if the lower and upper bounds of a coordinate are equal: the flag is then always -1, the column is kept when the error pushes the coordinate up, and the solver stays at a configuration that other configurations within the bounds improve.", "quantifier": "all constraints (affine or differentiable where stated), all decompositions that are exact, all bounds, all configurations within the bounds, all step lengths", "why_tests_cant": "Tests with bounds check a few configurations; which columns must be blocked is a matter of signs in each coordinate, and the effect of the clipping in integrate on the direction is not tested.", "anchors": ["src/solver/hierarchical-iterative.cc:121-144", "src/solver/hierarchical-iterative.cc:653-672", "src/solver/hierarchical-iterative.cc:712-719", "src/solver/hierarchical-iterative.cc:744-774"]}
{"id": "C109", "title": "Saturation objects stay within their vectors and survive an archive", "statement": "Bounds::saturate reads and writes within its vectors exactly if bounds, indices and vectors to write are at least as long as the configuration and the indices are those of flags; it then performs the clamping and flagging of C31. Device::saturate uses only coordinates and variables of the robot and writes the flags of all variables, for every list of joints. The constructor Bounds(lb, ub) is right if configurations and velocities have the same size, and makes saturate write out of the flags for all larger configurations. Saving and loading a solver restores Base and Device; a Function cannot be saved; for Bounds the vector of indices iq2iv_ is not saved, so that saturate reads out of an empty vector for every configuration after loading.", "quantifier": "all sizes of vectors, all bounds, all indices, all lists of joints, all configurations", "why_tests_cant": "Tests use Bounds on vector spaces only and do not serialize solvers that have a saturation; out of range accesses are undefined behaviour that release builds do not report.", "anchors": ["include/hpp/constraints/solver/hierarchical-iterative.hh:104-153", "src/solver/hierarchical-iterative.cc:138-174", "src/solver/hierarchical-iterative.cc:200", "src/solver/hierarchical-iterative.cc:930-955"]}
{"id": "C110", "title": "Linear equations with bounds", "statement": "One linear equation that has a solution within the bounds: from a configuration within the bounds, with computeSaturation at each iteration and saturation after each integration, the solver decreases the error at each iteration, never leaves the bounds and converges whatever the line search (steps in [bmin, 1]); with constant steps and no minimal step SUCCESS is returned after at most n iterations for n variables. With several equations this is false: there are three equations in four variables with a solution strictly inside the bounds for which the solver alternates for ever between two configurations.", "quantifier": "all numbers of variables, all coefficients, all bounds with lower < upper, all initial configurations within the bounds, all exact decompositions, all line searches with steps in [bmin, 1]", "why_tests_cant": "Convergence is a statement about all iterations and all systems; tests run a few systems, most of which do not touch their bounds. The cycle needs a particular configuration of active bounds.", "anchors": ["include/hpp/constraints/solver/impl/hierarchical-iterative.hh:128-181", "src/solver/hierarchical-iterative.cc:653-672", "src/solver/hierarchical-iterative.cc:712-719", "src/solver/hierarchical-iterative.cc:744-774"]}
{"id": "C111", "title": "The reduced Jacobian is the derivative of the error", "statement": "After computeValue<true>, whatever the matrix held before, the error of each level is the one of computeValue<false>, and the reduced Jacobian (rows solved for, free columns) is the derivative of the error along every motion of the free variables, inequality rows included, except exactly at the limit of an inequality; the rows left out do not change; the squared norm of the error is differentiable everywhere and its derivative is 2 error^T reducedJ v. getValue and getReducedJacobian stack the values and reduced Jacobians level after level, with as many rows as the reduced dimension.", "quantifier": "all solvers reached by sequences of operations, all masks, comparison types, right hand sides, free variables, configurations and velocities; all output Lie groups whose difference has the derivative computed by dDifference_dq1", "why_tests_cant": "Tests compare the Jacobian of single functions with finite differences; the composition (stacking, masks, inequalities, derivative of the difference, selection of rows and columns) is only exercised through convergence, which tolerates wrong rows.", "anchors": ["src/solver/hierarchical-iterative.cc:53-81", "src/solver/hierarchical-iterative.cc:623-646", "src/solver/hierarchical-iterative.cc:674-692", "src/solver/hierarchical-iterative.cc:409-434"]}
{"id": "C112", "title": "Functions with saturated variables", "statement": "ActiveSetDifferentiableFunction has the value and the sizes of the function it decorates. Its Jacobian, whatever the buffer contained, is that of the function with the columns of the intervals set to zero, so that it gives the velocity of the function when the saturated variables are stopped. Order, overlaps and nesting of the decorations do not matter. An interval out of range is undefined behaviour. The variables that are declared active are those on which the Jacobian depends.", "quantifier": "for every function, list of intervals, argument, buffer and velocity", "why_tests_cant": "The class has no test, and the property quantifies over all intervals and buffers.", "anchors": ["include/hpp/constraints/active-set-differentiable-function.hh:54-83"]}
{"id": "C113", "title": "Selections of rows and columns", "statement": "A selection of matrix blocks, with all the rows, all the columns, both or none of them (template arguments of MatrixBlocks and MatrixBlocksRef), reads and writes exactly the selected coefficients. transpose() selects in the transposed matrix the transpose of the view. keepRows() and keepCols() select the same rows and all the columns, or conversely. block, middleRows and middleCols select the rows and columns of the given ranks. isZero of a view tells whether all the coefficients of the view are small.", "quantifier": "for every selection, matrix and previous content of the destination", "why_tests_cant": "The iteration over the blocks depends on template arguments and on the way the indices are cut in intervals; the tests use a few sizes.", "anchors": ["include/hpp/constraints/matrix-view.hh:437-526", "include/hpp/constraints/matrix-view.hh:839-907", "include/hpp/constraints/matrix-view.hh:1030-1037"]}
{"id": "C114", "title": "Local convergence of a hierarchical solver built by insertion of constraints", "statement": "For a HierarchicalIterative built by add, setRightHandSide and freeVariables, the iterations of solve are those of C91 and C94 with the error, the reduced Jacobians and the rows that the solver computes, as soon as each active row depends on a free variable. Around a configuration where the functions are differentiable with Lipschitz continuous Jacobians and where the linearised equality constraints can be solved, solve returns SUCCESS if the initial error is small enough and enough iterations are allowed; then residualError is at most the threshold, so is the squared error returned by isConstraintSatisfied for each constraint inserted, and the variables that are not free keep their values. A constraint that depends on no free variable and is not satisfied at the start prevents SUCCESS.", "quantifier": "for every sequence of insertions, right hand sides, free variables, functions, decomposition, line search, and previous content of the matrices", "why_tests_cant": "It is a statement about all the iterations of the solver, for families of functions; tests solve a few random problems.", "anchors": ["include/hpp/constraints/solver/impl/hierarchical-iterative.hh:128-181", "src/solver/hierarchical-iterative.cc:623-646", "src/solver/hierarchical-iterative.cc:694-719", "src/solver/hierarchical-iterative.cc:744-828"]}
{"id": "C115", "title": "Local convergence of a solver by substitution built by insertion of constraints", "statement": "For a BySubstitution solver built by add and setRightHandSide, the iterations of solve are those of C95 with the explicit constraints, the error, the reduced Jacobians and the rows that the solver computes, as soon as each active row depends on a free variable, directly or through the explicit constraints. Along each curve the rows of the error that are solved for have for derivative the Jacobian computed by the solver. Around a configuration where the functions are differentiable with Lipschitz continuous reduced Jacobians and where the linearised equality constraints can be solved, solve returns SUCCESS if the initial error is small enough and enough iterations are allowed; then the explicit constraints hold exactly, isConstraintSatisfied returns true for each implicit constraint inserted, and isSatisfied returns true if the implicit formulations of the explicit constraints agree with them.", "quantifier": "for every sequence of insertions and right hand sides, functions, explicit constraints, decomposition, line search, and previous content of the matrices", "why_tests_cant": "It is a statement about all the iterations of the solver, for families of functions; tests solve a few random problems.", "anchors": ["include/hpp/constraints/solver/impl/by-substitution.hh:38-167", "src/solver/by-substitution.cc:166-256", "include/hpp/constraints/solver/by-substitution.hh:211-236", "src/solver/hierarchical-iterative.cc:744-828"]}
{"id": "C116", "title": "Jacobian of the implicit formulation on SO(2), SO(3) and for planar joints", "statement": "When the output of an explicit constraint is the configuration of an unbounded revolute joint (SO(2)), of a spherical joint (SO(3)) or of a planar joint (R2xSO2 or SE(2)), the Jacobian of the implicit formulation is the derivative of its value. It holds on SO(2) and R2xSO2 wherever the output is not opposite to the value of the explicit function. On SO(3) it holds where the constraint is satisfied and fails at every other configuration of relative angle in (1e-6, pi - 1e-2): the default visitor ignores the derivative of the logarithm and the relative rotation. On SE(2) it holds where the constraint is satisfied and fails, for every nonzero translation velocity, at every configuration of relative angle in [1e-4, pi).", "quantifier": "for every explicit function, indices of inputs and outputs, configuration and motion of the robot", "why_tests_cant": "The Jacobian is only wrong away from the solutions and for joints that the unit tests of explicit constraints do not use; a finite difference test needs a spherical joint as output.", "anchors": ["src/explicit/implicit-function.cc:143-147", "src/explicit/implicit-function.cc:209-250", "include/hpp/constraints/tools.hh:59-153"]}
{"id": "C117", "title": "Satisfaction of one constraint, of all of them, and thresholds in the solver by substitution", "statement": "In a solver by substitution, asking whether one constraint is satisfied gives for each constraint of the solver the same answer as its own error compared to the threshold, and reports constraints absent from the solver as not found. All constraints are satisfied exactly when the error of each part is below the threshold of the solver or the one given by the caller. Setting the threshold sets that of both parts.", "quantifier": "for every solver built by adding constraints and setting right hand sides and thresholds, every configuration, threshold and constraint", "why_tests_cant": "The two parts hold separate thresholds and separate lists of constraints; a test with a single threshold and no constraint present in both parts sees no difference.", "anchors": ["src/solver/by-substitution.cc:373-382", "include/hpp/constraints/solver/by-substitution.hh:211-236", "include/hpp/constraints/solver/by-substitution.hh:265-268", "src/explicit-constraint-set.cc:67-118", "include/hpp/constraints/solver/hierarchical-iterative.hh:338-352"]}
{"id": "C118", "title": "Variables that are not free are left unchanged", "statement": "Solving never changes a configuration variable none of whose velocity coordinates is among the free variables (and, in a solver by substitution, which is not an output of an explicit constraint), whatever the line search, the saturation and the descent direction. Setting the free variables resets the right hand sides, as adding a constraint does.", "quantifier": "for every set of free variables, every initial configuration within the bounds, every line search which moves along multiples of the step", "why_tests_cant": "Needs configurations out of bounds or right hand sides set before the free variables: unit tests of the solver set the free variables first and start from shot configurations.", "anchors": ["include/hpp/constraints/solver/hierarchical-iterative.hh:377-403", "src/solver/hierarchical-iterative.cc:364-407", "src/solver/hierarchical-iterative.cc:712-719", "src/solver/hierarchical-iterative.cc:744-828", "include/hpp/constraints/solver/impl/hierarchical-iterative.hh:39-181"]}
{"id": "C119", "title": "The smallest singular value reported by the solver detects losses of rank", "statement": "With one level, sigma() after a call of solve is zero iff the rank of the last Jacobian is smaller than the greatest rank met since the last update; otherwise it is the smallest nonzero singular value of the Jacobian, or the maximal double if all the Jacobians met are zero. With several levels it is non negative, and zero iff a level has lost rank on the motions left by the previous levels. Its computation does not change the descent direction and does not read outside the singular values.", "quantifier": "for every sequence of calls, every number of levels, every sequence of Jacobians, every exact decomposition with singular values in decreasing order", "why_tests_cant": "Needs configurations where the rank of a level of higher priority increases between two iterations; sigma is only read to tune planners, tests check the success of solve.", "anchors": ["src/solver/hierarchical-iterative.cc:744-823", "src/solver/hierarchical-iterative.cc:399", "include/hpp/constraints/solver/hierarchical-iterative.hh:366-370"]}
{"id": "C120", "title": "Frames attached to a surface", "statement": "The frame of a surface (a point, a segment or a convex polygon) in its joint is a rigid body transformation with the centre of the vertices as origin, the normal as first axis, an axis pointing outward through the first edge as second axis, and the direction of the first edge as third axis. The frame aligned with a vector of the world is a rigid body transformation with the same origin and first axis, and with the direction of the projection of the vector on the plane of the surface as second axis; it is the frame of the surface if the vector is normal to the surface.", "quantifier": "for every point, segment, convex polygon, every pose of the joint and every vector", "why_tests_cant": "All shapes and vectors; the aligned frame is wrong only for joints away from the origin of the world and vectors out of the plane.", "anchors": ["include/hpp/constraints/convex-shape.hh:232-294", "include/hpp/constraints/convex-shape.hh:362-379"]}
{"id": "C121", "title": "Closest point of a segment", "statement": "closestPointToSegment returns the point of the segment that is the closest to the point given.", "quantifier": "for every point and every segment, degenerate or not", "why_tests_cant": "The function is not tested and is right on the points that project onto the first end of the segment.", "anchors": ["include/hpp/constraints/convex-shape.hh:51-64"]}
{"id": "C122", "title": "Contact and complement constraints fix the object with respect to the floor", "statement": "Two configurations that satisfy the contact constraint and that have the same value of the complement constraint have the same surfaces in contact and the same pose of the object with respect to the floor. Conversely, the same nearest surfaces in the same relative pose give the same values of both functions.", "quantifier": "for every set of floors and objects, every two configurations, every margin", "why_tests_cant": "The values for two configurations have to be compared: tests check each function on sampled configurations.", "anchors": ["src/convex-shape-contact.cc:205-223", "src/convex-shape-contact.cc:405-423", "src/convex-shape-contact.cc:490-496", "src/explicit/convex-shape-contact.cc:90-112"]}
{"id": "C123", "title": "One step of the solver by substitution", "statement": "oneStep reaches a configuration where the explicit constraints hold and returns true exactly if the error of every mandatory implicit constraint is below the threshold there. For consistent linear constraints it reduces the error by the factor (1 - b)^2 where b is the shortest step length of the line search, and solves them if steps have length 1, whatever was computed before with the solver.", "quantifier": "for every set of levels, every line search, every configuration, every error left by an earlier computation", "why_tests_cant": "The result depends on the error left in the solver by an earlier call and on the initial value of the explicit variables: tests call oneStep on a fresh solver.", "anchors": ["include/hpp/constraints/solver/by-substitution.hh:250-258", "include/hpp/constraints/solver/hierarchical-iterative.hh:338-342", "include/hpp/constraints/solver/impl/hierarchical-iterative.hh:47-89", "include/hpp/constraints/solver/impl/hierarchical-iterative.hh:115-124"]}
{"id": "C124", "title": "Compound assignments from views", "statement": "dst = view, dst += view, dst -= view combine each coefficient of the destination exactly once with the coefficient of the same rank of the view; the same holds for element-wise expressions of a matrix and a view.", "quantifier": "for every matrix, every set of row and column intervals (repeated indices allowed), every assignment functor", "why_tests_cant": "Tests only use plain assignments of expressions that contain views.", "anchors": ["include/hpp/constraints/matrix-view.hh:224-244", "include/hpp/constraints/impl/matrix-view-operation.hh:72-82"]}
{"id": "C125", "title": "Meaning of the error threshold for constraints on poses", "statement": "If solve returns SUCCESS with error threshold t, each active row of each mandatory implicit constraint is within t of its right hand side (equalities) or within t of its limit (inequalities); for a constraint on a relative pose with all rows active and compared with equalities, the relative pose of the frames at the configuration returned moves each point x at most t + (t + 1e-18) |x| away from the point where the pose of the right hand side moves it.", "quantifier": "for every robot, generic transformation with vector values, solver built by insertion, line search, decomposition, initial configuration, threshold, and point", "why_tests_cant": "The geometric accuracy obtained depends on the distance between logarithms of rotations over the whole rotation group; tests check a few configurations, never close to a half turn.", "anchors": ["include/hpp/constraints/solver/impl/by-substitution.hh:38-167", "src/solver/hierarchical-iterative.cc:701-708", "src/generic-transformation.cc:219-233", "include/hpp/constraints/tools.hh:59-93"]}
{"id": "C126", "title": "Accuracy of contact constraints", "statement": "If the norm of the value of a contact function is at most t, then for the pair of surfaces selected the height of the center of the object over the floor is the margin up to t, its projection is inside the floor polygon or within t of the center of this polygon (inside, if the outline is farther than t from the center), and the normals are opposite up to (1 + 1e-12) t; this is an equivalence for the contact of a point, and conversely the squared norm of the value is at most the sum of the squared error of height and of (pi/2)^2 times the squared distance of the normals. In particular this holds at the configuration returned by a solver by substitution when it returns SUCCESS with error threshold t.", "quantifier": "for every lists of convex floor and object surfaces, margin, configuration, solver built by insertion, line search, decomposition, threshold", "why_tests_cant": "Tests check that the constraint is satisfied for the library itself; they do not measure heights, projections or angles at the configurations returned, nor configurations turned by almost half a turn about the normal.", "anchors": ["src/convex-shape-contact.cc:192-223", "src/explicit/convex-shape-contact.cc:90-112", "include/hpp/constraints/tools.hh:59-93", "include/hpp/constraints/solver/impl/by-substitution.hh:38-167"]}
{"id": "C127", "title": "Solving again what has been solved", "statement": "A configuration that satisfies the constraints is returned as it is, with SUCCESS and without iteration: for the hierarchical solver when every error is within the threshold, hence always for the result of a successful call; for the solver by substitution without optimization, when it satisfies the explicit constraints and the squared errors are at most one fourth of the squared threshold, hence for the result of a successful call from a configuration that did not satisfy the constraints, whatever the line searches of the two calls. From a configuration that satisfies the constraints the solver by substitution does at most two iterations, returns SUCCESS unless nothing is left to vary, and never increases the largest error.", "quantifier": "every history of insertions, every configuration, line search, direction, number of iterations, threshold", "why_tests_cant": "Needs two calls in a row for every solver and every configuration; tests call solve once from random configurations.", "anchors": ["include/hpp/constraints/solver/impl/hierarchical-iterative.hh:128-181", "include/hpp/constraints/solver/impl/by-substitution.hh:38-167"]}
{"id": "C128", "title": "The order of insertion of constraints of the same priority does not matter", "statement": "Two solvers (hierarchical or by substitution) that have the same parameters and right hand sides and into which the same constraints have been inserted with the same priorities, in two different orders, return from any configuration the same configuration and the same status after the same number of iterations.", "quantifier": "every permutation of every history of insertions, every number of levels, mask and comparison type, configuration, saturation, line search that uses integrate, residualError and computeLocalSlope (the four line searches of the library are instances), exact decomposition, previous content of the matrices", "why_tests_cant": "Needs two solvers compared for all permutations of all sets of constraints; floating point tests cannot tell a difference of order from rounding.", "anchors": ["src/solver/hierarchical-iterative.cc:623-672", "src/solver/hierarchical-iterative.cc:694-719", "src/solver/hierarchical-iterative.cc:744-828", "include/hpp/constraints/solver/impl/hierarchical-iterative.hh:128-181", "include/hpp/constraints/solver/impl/by-substitution.hh:38-167"]}
{"id": "C129", "title": "Constraints that do not depend on the free variables", "statement": "If a mandatory constraint that only reads variables that are not free is not satisfied at the initial configuration, solve does not return SUCCESS and leaves the value of this constraint unchanged. If no constraint depends on the free variables, solve returns the configuration unchanged, without iterating: SUCCESS if the mandatory constraints are satisfied, INFEASIBLE otherwise. Removing a constraint that does not depend on the free variables, and that is optional or satisfied exactly for the values of these variables, does not change the configuration, the status nor the number of iterations returned by solve.", "quantifier": "every history of insertions, number of levels, free variables, configuration, threshold, exact decomposition, line search that returns a configuration obtained by integration (the four line searches of the library are instances)", "why_tests_cant": "Quantifies over all solvers and all runs; a test shows one run that fails, not that no run can succeed.", "anchors": ["src/solver/hierarchical-iterative.cc:364-430", "src/solver/hierarchical-iterative.cc:623-672", "src/solver/hierarchical-iterative.cc:694-719", "src/solver/hierarchical-iterative.cc:744-828", "include/hpp/constraints/solver/impl/hierarchical-iterative.hh:39-181"]}
{"id": "C130", "title": "A stack of constraints and its parts inserted one by one", "statement": "A constraint whose function is a DifferentiableFunctionSet, with the comparison types and the masks of the parts concatenated, has as error the concatenation of the errors of the parts. The squared error of a solver with this constraint is at least the one of the solver into which the parts are inserted one by one with the same priority, and at most as many times larger as there are parts. When the parts all depend on the free variables, both solvers compute the same descent direction at each configuration; with the line searches Constant and FixedSequence solve visits the same configurations, and if both succeed the solver with the parts stops first.", "quantifier": "every list of parts with any masks and comparison types, other constraints and levels, configuration, right hand side, saturation, exact decomposition", "why_tests_cant": "Needs two solvers compared over all stacks and all configurations; a test compares one run up to rounding.", "anchors": ["include/hpp/constraints/differentiable-function-set.hh:64-126", "src/implicit.cc:114-136", "src/implicit.cc:190-200", "src/solver/hierarchical-iterative.cc:623-719", "src/solver/hierarchical-iterative.cc:744-828"]}
{"id": "C131", "title": "Backtracking on linear constraints that have a common solution", "statement": "On linear constraints that have a common solution the step computed by the solver satisfies all of them. Backtracking keeps this step exactly if the sum of the squared errors of the constraints of all levels is at most 500 times the largest squared error of a mandatory constraint; the line search fails and the step is divided by 5 exactly if it is more than 879.95 times larger. With at most 500 constraints and no optional level the solver thus succeeds in one iteration, as with constant steps.", "quantifier": "every number of levels and constraints, linear constraints with a common solution, configuration, thresholds, number of iterations, exact decomposition", "why_tests_cant": "The bound on the number of constraints follows from the parameters of the line search; tests have a few constraints only.", "anchors": ["include/hpp/constraints/solver/impl/hierarchical-iterative.hh:47-104", "include/hpp/constraints/solver/impl/hierarchical-iterative.hh:126-181", "src/solver/hierarchical-iterative.cc:85-90", "src/solver/hierarchical-iterative.cc:694-719"]}
{"id": "C132", "title": "Units, priorities and redundant constraints do not change the descent direction", "statement": "When the linearised constraints have a common solution, computeDescentDirection returns the shortest one: the direction depends on the set of solutions only. Multiplying constraints by non zero numbers or combining the rows of a level by an invertible matrix, changing priorities, order, or repeating constraints does not change it. On linear constraints solve with the line searches Constant and FixedSequence then visits the same configurations. In any case, a level whose rows are combinations of those of the levels of higher priority does not change the direction, even if it contradicts them.", "quantifier": "every two lists of levels with the same solutions, previous direction, thresholds, exact decompositions; every redundant level at any place", "why_tests_cant": "Compares the solver with itself over all equivalent formulations of the same problem; tests have one formulation.", "anchors": ["src/solver/hierarchical-iterative.cc:744-823", "include/hpp/constraints/solver/impl/hierarchical-iterative.hh:126-181"]}
{"id": "C133", "title": "Priorities do not change the result while the linearised constraints are compatible", "statement": "Two solvers with the same parameters, without optional level and without the option to solve level by level, into which the same constraints are inserted with different priorities: as long as the linearised constraints have a common solution at the configurations that are visited, solve returns the same configuration and the same status after the same number of iterations, with any line search. The same holds for the solver by substitution with the same explicit constraints, inserted in any order, when the implicit constraints linearised along the explicit ones have a common solution.", "quantifier": "every list of constraints and two assignments of priorities, right hand sides, free variables, line search, initial configuration, exact decomposition", "why_tests_cant": "Relates two executions for all assignments of priorities; tests use one.", "anchors": ["src/solver/hierarchical-iterative.cc:623-672", "src/solver/hierarchical-iterative.cc:694-719", "src/solver/hierarchical-iterative.cc:744-828", "include/hpp/constraints/solver/impl/hierarchical-iterative.hh:126-181"]}
{"id": "C134", "title": "More iterations or a larger threshold never turn a success into a failure", "statement": "If solve does not return MAX_ITERATION_REACHED, a larger maximal number of iterations gives the same configuration, status and number of iterations. If it returns SUCCESS, it returns SUCCESS with a larger error threshold, after the same number of iterations at most. Both hold for the hierarchical solver and for the solver by substitution. When the latter optimizes from a configuration that satisfies the constraints, more iterations never increase the cost of the configuration returned.", "quantifier": "every behaviour of the numerical steps, then every solver, line search that does not read the threshold, initial configuration, pair of thresholds, pair of numbers of iterations", "why_tests_cant": "Relates executions with different parameters, for all pairs of parameters.", "anchors": ["include/hpp/constraints/solver/impl/hierarchical-iterative.hh:128-181", "include/hpp/constraints/solver/impl/by-substitution.hh:38-167", "src/solver/hierarchical-iterative.cc:744-828"]}
{"id": "C135", "title": "The result does not depend on the unit in which the constraints are expressed", "statement": "If the values, the Jacobians and the right hand sides of all the constraints of a solver are multiplied by a positive number, the error threshold and the inequality threshold being multiplied by the same number, solve returns the same configuration and the same status after the same number of iterations. This holds for the four line searches, with saturation, with an optional level, with the option to solve level by level, and when the solver by substitution optimizes; for the latter only the implicit constraints are converted.", "quantifier": "every positive factor, set of constraints with values in vector spaces, right hand side, priority, parameter, initial configuration, pair of exact singular value decompositions", "why_tests_cant": "Relates the executions of two different solvers, for all factors and all constraints.", "anchors": ["src/solver/hierarchical-iterative.cc:623-672", "src/solver/hierarchical-iterative.cc:744-828", "include/hpp/constraints/solver/impl/hierarchical-iterative.hh:39-181", "include/hpp/constraints/solver/impl/by-substitution.hh:38-167"]}
{"id": "C136", "title": "Functions that do not change when the robot is displaced as a whole", "statement": "Changing only the configuration variables of a joint from which all the joints of the robot descend (a free-flyer) displaces all of them by the same rigid displacement. When the joints concerned are displaced by the same rigid displacement, with the same velocities in their own frames: the value and the Jacobian of a relative position, orientation or transformation do not change, for all masks and frames; the position of the center of mass in the frame of a joint and its Jacobian do not change; the outputs of the center of mass between the feet do not change, except the height, which changes by the change of height of the center of mass; the distance between points of two joints does not change; the contact functions between surfaces on joints, their complements and the surfaces that are selected do not change. When the displacement leaves the vertical direction unchanged, the values of the two static stability functions do not change, the residual wrench of the second one being turned with the robot. Absolute positions, contacts with a floor fixed in the world, and static stability for a displacement that tilts the robot, do change in general.", "quantifier": "every rigid displacement, robot, pair of configurations, mask, set of surfaces, list of contact forces, solver of quadratic programs, exact singular value decomposition, previous content of the memory of the functions", "why_tests_cant": "Relates the values of a function in infinitely many pairs of states of the robot, for all displacements.", "anchors": ["src/generic-transformation.cc:60-330", "src/relative-com.cc:80-140", "src/com-between-feet.cc:90-180", "src/distance-between-points-in-bodies.cc:80-160", "src/convex-shape-contact.cc:150-330", "src/static-stability.cc:90-230", "src/qp-static-stability.cc:120-225"]}
{"id": "C137", "title": "The numbering of the configuration variables does not matter", "statement": "If the configuration and velocity variables of a robot are numbered in another way, or if variables that no constraint depends on and that are not free are inserted among them, a solver with the same constraints, priorities, right hand sides and parameters returns the converted configuration and the same status after the same number of iterations. This holds for the four line searches, with saturation, with an optional level and with the option to solve level by level.", "quantifier": "every pair of bijections of the indices, set of constraints, right hand side, priority, parameter, initial configuration, pair of exact singular value decompositions, content of the work variables", "why_tests_cant": "Relates the executions of two different solvers, for all numberings and all constraints.", "anchors": ["src/solver/hierarchical-iterative.cc:364-407", "src/solver/hierarchical-iterative.cc:623-672", "src/solver/hierarchical-iterative.cc:744-828", "include/hpp/constraints/solver/impl/hierarchical-iterative.hh:39-181", "src/matrix-view.cc:44-147"]}
{"id": "C138", "title": "The test of strict complementarity tells whether the Jacobian of the static stability constraint is right", "statement": "QPStaticStability::impl_jacobian writes that strict complementary slackness does not hold and that the Jacobian will be wrong when checkStrictComplementarity returns false. The forces that are used always pass checkQPSol and satisfy the complementarity conditions; the test passes exactly when each contact carries a force above the tolerance or has a multiplier above the tolerance; when it passes, the Jacobian is (half) the derivative of the value; when it fails, it is not.", "quantifier": "every set of contacts, state of the robot, motion, exact solver of the quadratic program, tolerance, content of the cache", "why_tests_cant": "The test compares numbers; that it decides the existence of a derivative is a statement on all motions of the robot.", "anchors": ["src/qp-static-stability.cc:176-240"]}
{"id": "C139", "title": "Symmetries of the constraints are symmetries of the solvers", "statement": "If a transformation of the configurations (for instance a displacement of the robot and of the objects as a whole) changes neither the values nor the Jacobians of the constraints and commutes with the integration of velocities (and, for the solver by substitution, with the explicit constraints), then solving from the transformed configuration gives the transformed result, with the same status and number of iterations.", "quantifier": "every set of constraints, priorities, right hand sides, parameters, transformation with these properties, initial configuration, decomposition, line search of the library, with or without optimization", "why_tests_cant": "A test can compare two runs from two configurations; the statement is on all constraints, all transformations and all configurations.", "anchors": ["include/hpp/constraints/solver/impl/hierarchical-iterative.hh:39-181", "include/hpp/constraints/solver/impl/by-substitution.hh:38-167", "src/solver/hierarchical-iterative.cc:623-672", "src/solver/hierarchical-iterative.cc:744-828"]}
{"id": "C140", "title": "Units of the configuration variables", "statement": "If the linearised constraints determine the velocities of all variables that they read, and no step is rejected as too short, then the result of the solver does not depend on the units of the configuration variables (metres or millimetres, radians or degrees): same configuration, same status, same number of iterations.", "quantifier": "every set of constraints, priorities, right hand sides, parameters, positive unit for each variable, initial configuration, decomposition, line search of the library", "why_tests_cant": "A test compares two systems of units on one problem; the statement is on all problems and all units, and its exceptions (under-determined problems, test on the length of the step) appear on particular problems only.", "anchors": ["src/solver/hierarchical-iterative.cc:744-828", "include/hpp/constraints/solver/impl/hierarchical-iterative.hh:39-181"]}
{"id": "C141", "title": "Solving on the leaf of a configuration", "statement": "After rightHandSideFromConfig(q0), q0 satisfying the components that are not parametrised (exactly, those not compared by Equality being neutral): solve(q0) returns q0 with SUCCESS without iteration; a call from another configuration that returns SUCCESS returns a configuration of the leaf of q0, exactly for the explicit constraints and up to the threshold for the implicit ones; two configurations with the same values of the parametrisable components define the same leaf; on vector spaces setting the right hand side never makes a constraint worse at q0. Repeating the two calls can nevertheless drift without bound, since each call may move by the threshold.", "quantifier": "every set of constraints, history of right hand sides, configurations q0 and q, line search, decomposition and parameters of the solvers", "why_tests_cant": "A test samples a few configurations of one manipulation problem; the statement relates two functions (right hand side and solve) for all problems and all numerical behaviours.", "anchors": ["src/solver/by-substitution.cc:312-319", "src/solver/hierarchical-iterative.cc:436-444", "src/explicit-constraint-set.cc:316-322", "include/hpp/constraints/solver/impl/by-substitution.hh:39-166"]}
{"id": "C142", "title": "Bounds that are not reached do not matter", "statement": "If the successive configurations of HierarchicalIterative::solve without bounds are strictly inside the bounds of the configuration space, and the steps before they are shortened by the line search do not leave them, then solve with bounds returns the same configuration, the same status and the same number of iterations, whatever the previous content of the saturation flags. On vector spaces it is enough that the full steps stay inside. The same holds for BySubstitution::solve, whether it optimizes or not. A bound in the way of a step can turn a success into a failure.", "quantifier": "every solver, set of bounds, configuration space, decomposition, initial configuration and content of the buffers, every line search of the library", "why_tests_cant": "A test compares a few runs with and without bounds; the claim is an equality of the results of two executions of unknown length for all problems.", "anchors": ["src/solver/hierarchical-iterative.cc:653-672", "src/solver/hierarchical-iterative.cc:712-719", "src/solver/hierarchical-iterative.cc:114-195", "include/hpp/constraints/solver/impl/hierarchical-iterative.hh:39-181"]}
{"id": "C143", "title": "Local convergence inside the bounds", "statement": "Around a configuration where the constraints are regular (Jacobians equal to the derivatives, Lipschitz continuous and bounded; the linearised constraints have a solution proportional to the error) and with a small initial error, if the ball of radius 2 beta epsilon is strictly inside the bounds, HierarchicalIterative::solve with saturation returns SUCCESS; the configuration returned is strictly inside the bounds, satisfies every constraint up to the threshold, leaves the variables that are not free unchanged, and is the one that would be returned without bounds.", "quantifier": "every set of equality constraints on a vector space, radius, constants, set of bounds, decomposition, line search of the library, content of the buffers and of the saturation flags", "why_tests_cant": "Tests run the solver on a few problems; the claim is a convergence theorem for a class of nonlinear problems with bounds, for a number of iterations that is not bounded.", "anchors": ["src/solver/hierarchical-iterative.cc:653-672", "src/solver/hierarchical-iterative.cc:712-719", "src/solver/hierarchical-iterative.cc:744-823", "include/hpp/constraints/solver/impl/hierarchical-iterative.hh:39-181"]}
{"id": "C144", "title": "Local convergence of BySubstitution inside the bounds", "statement": "Around a configuration where the implicit constraints, seen as functions of the free variables, are regular and have a small error, if the configurations that satisfy the explicit constraints and whose free variables are in a ball around the initial ones are strictly inside the bounds, then BySubstitution::solve with saturation returns SUCCESS; the configuration returned is strictly inside the bounds, satisfies the explicit constraints exactly and the implicit ones up to the threshold, and is the one that would be returned without bounds.", "quantifier": "every set of explicit constraints and of implicit equality constraints on a vector space, radius, constants, set of bounds, decomposition, line search of the library, content of the buffers and of the saturation flags", "why_tests_cant": "Tests run the solver on a few problems; the claim is a convergence theorem for a class of nonlinear problems with explicit constraints and bounds.", "anchors": ["include/hpp/constraints/solver/impl/by-substitution.hh:38-167", "src/solver/by-substitution.cc:166-204", "src/solver/hierarchical-iterative.cc:653-672", "src/solver/hierarchical-iterative.cc:712-719"]}
{"id": "C145", "title": "An iteration does not move a variable at a bound that the constraints push out", "statement": "During an iteration of HierarchicalIterative::solve or BySubstitution::solve, in each priority level exactly the columns of the free variables that have reached a bound of the configuration space and that the error of the level pushes out are set to zero, whatever the set of free variables. With one level the descent direction is zero on these variables and, on a vector space, their coordinates keep the value of the bound, for all line searches of the library; after each iteration of HierarchicalIterative::solve the configuration is within the bounds.", "quantifier": "every solver, set of free variables, set of bounds with an interior, configuration, exact decomposition, content of the buffers, iteration number (HierarchicalIterative), coefficient applied to the direction (BySubstitution), line search of the library", "why_tests_cant": "Tests with bounds are few and all variables are free in them; confusing the rank of a free variable with its index blocks another variable and only shows if some variables are not free.", "anchors": ["src/solver/hierarchical-iterative.cc:653-672", "src/solver/hierarchical-iterative.cc:712-719", "src/solver/hierarchical-iterative.cc:744-774", "include/hpp/constraints/solver/impl/hierarchical-iterative.hh:39-181", "include/hpp/constraints/solver/impl/by-substitution.hh:38-167"]}
{"id": "C146", "title": "Without explicit constraints BySubstitution iterates like HierarchicalIterative", "statement": "A solver BySubstitution in which no constraint was found to be explicit has the same active rows, the same reduced dimension and the same reduced Jacobians as the HierarchicalIterative part it derives from; for every line search both methods solve go through the same configurations, errors, directions and step norms. If BySubstitution::solve returns SUCCESS, HierarchicalIterative::solve with the same parameters returns SUCCESS after at most as many iterations, and its configuration does not have a smaller error. The converse is false.", "quantifier": "every history of a solver without explicit constraint, right hand sides, set of free variables, configuration, saturation, integration, decomposition, content of the buffers, line search, iteration number, thresholds, maximal number of iterations", "why_tests_cant": "The two solvers are tested on different problems; a difference in the computation of active rows or Jacobians for an empty explicit set, or in the order of the tests of the loop, only shows by comparing complete runs for all problems.", "anchors": ["src/solver/by-substitution.cc:166-256", "include/hpp/constraints/solver/impl/by-substitution.hh:38-167", "include/hpp/constraints/solver/impl/hierarchical-iterative.hh:130-181", "src/solver/hierarchical-iterative.cc:409-434"]}
{"id": "C147", "title": "Variables out of reach of the solver by substitution", "statement": "BySubstitution::solve, optimizing or not: the variables that no integration of velocities of the free variables changes, and the outputs of the explicit constraints whose inputs are, directly or through other explicit constraints, such variables, have after solve the value that the explicit constraints give them at the initial configuration. A mandatory implicit constraint that only reads such variables and is not satisfied once the explicit constraints are solved excludes SUCCESS. If no implicit constraint depends on the free variables or, through the explicit constraints, on variables that are not outputs, solve (not optimizing) returns the initial configuration with explicit constraints solved, without iteration, with SUCCESS if the squared errors are at most a quarter of the squared threshold and INFEASIBLE otherwise.", "quantifier": "every solver built by add and changes of right hand sides, of parameters and of free variables, both modes, every configuration, decomposition, saturation and integration (with the stated property), content of the buffers, line search that integrates from the current configuration (all those of the library), chains of explicit constraints of any length", "why_tests_cant": "Tests restrict free variables in few cases and never with chains of explicit constraints whose inputs are not free.", "anchors": ["include/hpp/constraints/solver/impl/by-substitution.hh:38-167", "src/solver/by-substitution.cc:206-256", "src/explicit-constraint-set.cc:60-65", "src/solver/hierarchical-iterative.cc:712-719"]}
{"id": "C148", "title": "Accuracy of Jacobians by finite differences", "statement": "finiteDifferenceForward and finiteDifferenceCentral, with or without robot: the step is positive and at most eps max(1, |x_j|). If the derivative of a component of the value in an active direction j varies with constant L over the step, forward differences are within L/2 times the step of the derivative; this bound is reached. If the second derivative varies with constant M, central differences are within M/6 times the square of the step; if only the first derivative varies with constant L, within L/2 times the step. Both tend to the derivative when eps tends to zero. Without robot, the result is that with a robot whose integration is the addition. The Jacobian of Manipulability, computed by central differences with eps = 1e-8, is within M/6 times the square of 1e-8 max(1, |x_j|) of the derivative of the value.", "quantifier": "every function, configuration, direction, parameter eps, content of the output matrix, configuration spaces and values in Lie groups", "why_tests_cant": "A bound for all differentiable functions; tests compare finite differences with the Jacobians of a few functions at random points.", "anchors": ["src/differentiable-function.cc:48-212", "src/manipulability.cc:103-105"]}
{"id": "C149", "title": "Configurations accepted by StaticStability and by QPStaticStability", "statement": "StaticStability::impl_compute returns a zero residual and non-negative forces if and only if the smallest forces along the contact normals that balance gravity are non-negative. Non-negative forces that are returned are always the smallest ones among those whose residual is not larger: the correction by the projection of the negative part on the kernel never makes the forces non-negative. Then the value of QPStaticStability for the same contacts is zero. If distinct forces have distinct wrenches the two functions accept the same configurations. Otherwise they can disagree: with three contacts at abscissas -1, 4 and 8 below a center of mass at 0, forces 4/5, 1/5 and 0 balance gravity and the value of QPStaticStability is zero, but StaticStability returns a negative force.", "quantifier": "every contacts, pose of the joints, position of the center of mass, precision of isZero, content of the members, decomposition satisfying the contract of the SVD and solver satisfying the contract of the quadratic program", "why_tests_cant": "An equivalence over all contact geometries, and an incompleteness with respect to the physical notion that no run of one function shows; tests only compare Jacobians with finite differences.", "anchors": ["src/static-stability.cc:92-114", "src/static-stability.cc:176-191", "src/qp-static-stability.cc:158-174"]}
{"id": "C150", "title": "Bounds and priorities", "statement": "computeDescentDirection after computeSaturation, any number of levels: a variable that in each level is blocked (at a bound, pushed out by the error of the level) or absent is not moved. If each variable blocked in the level of highest priority is blocked or absent in the other ones, these do not degrade it: the direction minimises its linearised error among the directions that do not move the blocked variables. Otherwise the priorities are not respected, since columns are set to zero separately in each level: with x + y = 2, bounds [0, 1], from (1, 0) and with full steps, solve returns SUCCESS at (1, 1) after one iteration, but never returns SUCCESS if the optional level x = 0, y = 0 is added; the configuration alternates between (1, 0) and (0, 1).", "quantifier": "every Jacobians, errors and saturation flags, exact decomposition, previous content of dqSmall; for the counterexample every threshold below 1, numbers of iterations and exact decomposition", "why_tests_cant": "The interaction of saturation and priorities only shows up at the bounds, with conflicting levels; the claim is about all levels and directions.", "anchors": ["src/solver/hierarchical-iterative.cc:653-672", "src/solver/hierarchical-iterative.cc:744-823", "include/hpp/constraints/solver/impl/hierarchical-iterative.hh:123-181"]}
{"id": "C151", "title": "Optional constraints when levels are solved one after the other", "statement": "With solveLevelByLevel(true) the levels after the first one are not read by computeDescentDirection while the squared error of the first one is larger than the squared threshold. As a consequence, if there is one mandatory level, lastIsOptional(true), and the line search is Constant, FixedSequence or ErrorNormBased, HierarchicalIterative::solve returns exactly the configuration, status, number of iterations and memory that it returns without the optional level: optional constraints are never taken into account. With Backtracking this is false: the slope is computed from all levels, and a far optional level shortens the steps.", "quantifier": "every mandatory and optional level (errors, Jacobians, dimensions), configuration space, integration, initial configuration, number of iterations, non-negative threshold, decomposition, previous content of the memory; every solver built by insertions", "why_tests_cant": "An equality of two whole runs for all inputs, that combines two options; no test sets both options.", "anchors": ["src/solver/hierarchical-iterative.cc:694-710", "src/solver/hierarchical-iterative.cc:744-823", "include/hpp/constraints/solver/impl/hierarchical-iterative.hh:123-181"]}
{"id": "C152", "title": "Which levels are considered when levels are solved one after the other", "statement": "With solveLevelByLevel(true) the direction of descent is the one computed without this option for the levels up to the first one whose linearised error, after the step computed for the levels before it, has a squared norm larger than the squared threshold; if there is no such level the option has no effect. The criterion is not whether the level is satisfied at the current configuration: a level can be taken into account although the previous one is not satisfied, and ignored although all the previous ones are.", "quantifier": "every list of levels (dimensions, Jacobians, errors, also levels without active rows), threshold, decomposition, previous value of the direction", "why_tests_cant": "An equality for all lists of levels; no test of the repository sets solveLevelByLevel.", "anchors": ["src/solver/hierarchical-iterative.cc:744-823", "include/hpp/constraints/solver/hierarchical-iterative.hh:201-208", "include/hpp/constraints/solver/hierarchical-iterative.hh:424-432"]}
{"id": "C153", "title": "Linear constraints solved one level after the other", "statement": "Linear constraints in several levels that have a common solution, solveLevelByLevel(true) and the line search Constant: after each iteration one more level is satisfied exactly, so that HierarchicalIterative::solve does at most one iteration per level. It returns SUCCESS unless less iterations are allowed than there are levels, or a step that satisfies the next level is smaller than the smallest step accepted (INFEASIBLE), or there are at least five levels. With five levels ERROR_INCREASED can be returned although the next iteration would satisfy all constraints.", "quantifier": "every number of levels and dimension, linear constraints with a common solution, configuration space and integration on which they are linear, threshold, smallest step, number of iterations, exact decomposition, initial direction; the first level has rows", "why_tests_cant": "Quantifies over all linear problems and numbers of levels; the failure appears only from five levels and no test solves level by level.", "anchors": ["src/solver/hierarchical-iterative.cc:744-823", "include/hpp/constraints/solver/impl/hierarchical-iterative.hh:123-181"]}
{"id": "C154", "title": "Only the order of the priorities matters", "statement": "Gaps between priorities have no effect: if the same constraints are added to two HierarchicalIterative with the same parameters, in any order, with priorities that are renumbered by a strictly increasing map that keeps 0, and if a constraint of priority 0 has a row to be solved for, solve returns the same configuration and the same status after the same number of iterations. The levels without constraints are skipped in the descent direction, whether or not levels are solved one after the other, and in the slope used by the line searches. The same holds for BySubstitution and the priorities of its implicit constraints, when the explicit constraints are defined everywhere, with or without optimization of the last level. If no constraint has priority 0 the result can differ: it depends on the direction left by the previous call.", "quantifier": "every solver built by insertions, renumbering of priorities, order of insertion, line search, saturation, threshold, optional last level, solveLevelByLevel, initial configuration and direction, exact decomposition", "why_tests_cant": "Quantifies over all sets of constraints and renumberings; tests use consecutive priorities.", "anchors": ["src/solver/hierarchical-iterative.cc:263-303", "src/solver/hierarchical-iterative.cc:744-823", "include/hpp/constraints/solver/impl/hierarchical-iterative.hh:39-181"]}
{"id": "C155", "title": "Calling solve again after MAX_ITERATION_REACHED", "statement": "If HierarchicalIterative::solve returns MAX_ITERATION_REACHED after k iterations and is called again from the configuration returned, with j iterations and a line search that has the same state, then the second call returns the same configuration and the same status as one call with k + j iterations, and the numbers of iterations add up, unless the latter returns ERROR_INCREASED: in this case the second call does not stop before, and it may return SUCCESS. The same holds for iterations split between any number of calls. A line search with a state is taken by value, so that with FixedSequence the second call starts with short steps again and the configurations differ. The same holds for BySubstitution::solve without optimization if the error reached is not below the threshold; otherwise the second call returns SUCCESS after at most two iterations without increasing the error, provided the explicit constraints are defined, also where one call returns MAX_ITERATION_REACHED. With optimization, however often solve is called again from the result of the previous call, from a configuration that satisfies the constraints with a margin: all results satisfy them and the cost never increases; but the scaling of the steps is restarted, and several calls may return a configuration with a lower cost than one call with as many iterations.", "quantifier": "every behaviour of the numerical steps (constraints, configuration space, saturation, decomposition), number of iterations of both calls, threshold, smallest step, initial configuration", "why_tests_cant": "Quantifies over all problems and all ways to split the iterations; tests call solve once.", "anchors": ["include/hpp/constraints/solver/impl/hierarchical-iterative.hh:123-181", "include/hpp/constraints/solver/impl/hierarchical-iterative.hh:106-113", "include/hpp/constraints/solver/impl/by-substitution.hh:38-167"]}
{"id": "C156", "title": "Decrease of the error along the iterations", "statement": "Before the last iteration of HierarchicalIterative::solve, at least one of any three successive iterations, the first iteration excepted, decreases the squared error, because solve stops after three successive iterations that do not. The same holds for BySubstitution::solve without optimization, first iteration included, since the initial error is compared there. This does not bound the error of the configuration returned: the configurations visited are not compared, and for the equation x^2 = 1, from 1 / n with one iteration and the line search Constant, the squared error grows from less than 1 to at least n^4 / 64.", "quantifier": "every behaviour of the numerical steps, number of iterations, threshold, smallest step, initial configuration and index of the iteration; for the growth every rational n at least 4", "why_tests_cant": "Quantifies over all problems and all iterations of all runs; tests look at the status and at the configuration returned.", "anchors": ["include/hpp/constraints/solver/impl/hierarchical-iterative.hh:128-181", "include/hpp/constraints/solver/impl/by-substitution.hh:38-167"]}
