# Design of the formal model of OpenSEMBA/dgtd

The code under study is a C++ discontinuous-Galerkin time-domain Maxwell solver
built on MFEM.  This directory holds a Lean 4 model of the parts of it that are
logic (index arithmetic, assembly, state machines, decision tables, file
formats, source algebra) and machine-checked theorems about that model.

## Layout

* `properties.jsonl` – the English properties `C01 …`.
* `lean/Verif/Model/*.lean` – the model, function by function, each definition
  citing the file and lines of `/repo` it models.
* `lean/Verif/Spec/*.lean` – small independent specifications, where a property
  needs vocabulary beyond plain mathematics.
* `lean/Verif/Lemmas/*.lean` – helper lemmas.
* `lean/Verif/Props/*.lean` – the property theorems with their non-vacuity
  `example`s, nothing else.
* `MANIFEST.json` – property → theorem names.
* `seeded/LOG.jsonl` – record of deliberate model bugs and which theorems
  noticed them.

## Trusted base

* Lean's kernel (4.33.0) and the axioms `propext`, `Classical.choice`,
  `Quot.sound` (no others; no `native_decide`, no `bv_decide`, no `sorry`).
* The reading of the C++ source: the model is hand-written.
* Idealisations that apply everywhere unless a definition says otherwise:
  * `double` is modelled by a linearly ordered field (often abstract `K`, or `ℝ`
    where square roots and trigonometry occur).  Rounding, overflow, NaN and
    infinities are not modelled.
  * `int`/`size_t` are unbounded `Int`/`Nat`, unless the property is about
    signs/wrap-around.
  * C++ undefined behaviour (out-of-range index, null pointer, division by
    zero) is a distinct outcome (`none`, or a dedicated error constructor) and
    is never totalised away.
* MFEM, Eigen, METIS, the C++ standard library, OpenMP and the file system are
  external.  What is assumed of them is a hypothesis or a parameter of the
  theorem concerned and is listed in that property's entry below.

## Plan per property

| id | what is modelled | how it is proved |
|----|------------------|------------------|
| C01 | quadrature-point level face matrices of the zero/one/two-normal integrators, boundary coefficients, block placement and signs of the global operator, conductivity term | energy method: discrete summation by parts of the derivative matrices (hypothesis on MFEM's exact quadrature) + per-quadrature-point algebra, summed over all faces |
| C02 | same | same, equality |
| C03 | the block table of the global operator and the explicit formula of `MaxwellEvolution::Mult` | both as linear maps over an arbitrary module; equality by algebra; counter-example with conductivity |
| C04 | `mergeBlocksToCSR` as two passes over arrays with marker | loop invariants; refinement to a sum of blocks |
| C05 | `loadBlockInGlobalAtIndices` as additive updates | both refine the same sum |
| C06 | offsets of `Fields`, `GlobalIndices`, `getOffset` | arithmetic, write/read laws |
| C07 | `run`/`step` loop as fuelled iteration | invariants over iterations, Archimedean bound for termination |
| C08 | probe gate + cycle counter over the history of `updateProbes` | induction over the history |
| C09 | `recalculateExportSteps` | integer arithmetic |
| C10 | MOR probe state machine | induction over the history |
| C11 | `checkOptionsAreValid` | decision logic |
| C12 | `calcMeshTimeStep`/`getMinimumInterNodeDistance` | order reasoning on folds |
| C13–C15 | `applyPairwiseConstraintsPartitioning` incl. disjoint-set forest with path halving and union by rank | refinement of the forest to the equivalence closure; invariants of the assignment loop |
| C16 | `fixGmshMesh` on lists of tokenised lines | list induction |
| C17, C18 | attribute maps as association lists with `emplace`/`insert` semantics | list induction |
| C19 | `Material` over ℝ | real algebra |
| C20, C21 | vectors/markers as lists with bounds outcome | fold invariants |
| C22 | marker construction in `postProcessInformation` | counter-example + partial theorem |
| C23 | `buildSGBCMesh` vertex/attribute lists | list arithmetic |
| C24 | `buildFaceRotationMatrix` over ℝ | real algebra |
| C25, C26, C29, C30, C31 | state machines of `GlobalEvolution` and `SGBCWrapper` with the inner 1-D solver as a parameter | invariants over operation histories, commutation of tasks |
| C27, C28 | sub-step arithmetic and ghost interpolation | ordered-field algebra |
| C32, C33 | source loops | fold algebra; counter-examples for several sources |
| C34 | `Planewave` over ℝ | vector algebra |
| C35, C36 | transfer maps; TFSF tagging | list induction |
| C37 | spherical conversions over ℝ | trigonometry |
| C38 | orientation test on vertex lists | list rotation |
| C39, C40 | matrix comparator and column removal | list induction |
| C41, C42 | nodal flux and boundary-condition loops | vector algebra, fold invariants |
| C43 | 1-D connectivity | counter-example; partial theorem |
| C44 | boundary node maps | list induction |
| C45 | selection loop | fold invariant |
| C46, C47 | writer/reader of the surface file on word streams | round trip, prefix analysis |
| C48–C52 | radiation integrals as finite sums | sum algebra, Cauchy–Schwarz |
| C53, C57, C59 | decision logic on strings | case analysis |
| C54, C55 | guards and merging | counter-examples + partial theorems |
| C56 | `linspace` | algebra |
| C58 | layer discretisation | order reasoning |
| C60 | attribute restoration | counter-example + partial theorem |
| C61, C62 | quadrature loops | fold algebra |
| C63 | movie map | induction over the history |
| C64 | dense implicit step of the thin-layer solver | positive-definite part of the operator, hence injectivity |
| C65–C67 | the same state machine of the global operator | partial theorems for separated faces; counter-examples for corners, facing sheets, exterior layers, implicit integrators |
| C68, C69 | radiation integrals with repeated requests; both far-field implementations | algebra of finite sums; counter-examples |
| C70 | element-type tables of the mesh repair | list induction; counter-example |
| C71–C73 | attribute maps, markers, piecewise coefficients | partial theorems and counter-examples |
| C74 | highest frequency and layer discretisation | order reasoning; counter-example |
| C75 | path manipulation as lists of characters | partial theorem and counter-example |
| C76 | MOR probe over all histories | partial theorem, counter-example |
| C77, C78 | options → time step → loop | composition of C07, C11, C12; counter-examples |
| C79, C80 | dipole and delays over ℝ | derivatives of explicit fields (`HasDerivAt`); estimates of exponentials |
| C81, C82 | reading of the `sources` member | case analysis; counter-examples |
| C83–C85 | total-field and near-to-far-field sub-mesh selection on abstract meshes | geometry over an ordered field; counter-examples |
| C86 | nodal connectivity from the coupling matrix | list induction |
| C87–C90 | right-hand side of the nodal operator | energy method with summation by parts of the element matrices (hypothesis `SBP`), vector algebra |
| C91 | side rules of both operators | comparison of the two decision functions |
| C92–C94 | pole fit | polynomial identities, companion matrix, order reasoning |
| C95 | plane-wave entry as read by the solver and by the post-processing | real algebra; counter-examples |
| C96–C99 | decimal text of doubles (rationals with the shape of IEEE doubles) | error bounds of rounding to digits against the spacing of doubles; counter-examples |
| C100–C102 | file system as a dictionary, operations of the ranks interleaved arbitrarily between barriers | projection of every interleaving onto one file, list induction; counter-examples |
| C103, C104 | members of the `probes` entries; surface marker | case analysis, list induction; counter-examples |
| C105 | two-sided memory (host and device buffers with validity flags), kernels as permuted lists of assignments | order independence of consistent assignments, refinement to the CPU operator; counter-examples |
| C106–C108 | source blocks of the global operator over faces with quadrature points, two passes over the pairs of layer nodes | bilinear forms of the face integrators on split states, comparison of forms row by row; counter-examples |
| C109–C112 | constructor of the global evolution: pairs per face, states per tag, element lists | invariants of the nested loops over maps; positivity of stored orientations; counter-examples |
| C113 | sub-mesh operators and transfers of the component-wise operator | one pass subtracts the sub-mesh operator; C03 on the sub-mesh; faces without jump drop out; counter-examples |
| C114–C117 | block matrices of the spectral tools as sequences of additions, the check of the option inside the constructor | products of block matrices with fields; folds over lists of eigenvalues; null pointer as an outcome; counter-examples |
| C118–C123 | the seven time integrators as sequences of applications and solves, over real vectors | energy identities of the stages (algebraic certificates), Cauchy–Schwarz, Taylor remainder in the energy and order conditions as vanishing moments of quadrature formulas (C122), exponential of the operator for existence, compactness of the unit sphere; counter-examples |
| C124–C126 | the operator of a rank with the columns of its neighbours, exchange as a table, work vector as writes | rows of the rank's matrices against rows of the whole (forms of the face integrators, symmetry under swapping sides, sums over classes of faces); intertwining of the integrator with the hand-out; counter-example |
| C127–C128 | the waves of every rank with its own skipping test | rows of the source operator against rows of the whole; perturbation of the stages of the explicit integrator in the energy norm; counter-example |
| C129–C130 | set-up of the nodal operator from reference element, sub-meshes and faces; the whole product as function of the fields | rows of the nodal product against rows of the global one: zero columns of the face matrices (C42), connectivity (C40), fluxes side by side, uniqueness of inverses; intertwining of the integrator; counter-examples on two triangles and one square |
| C131–C134 | weak form of every row of the global operator; descriptions of a mesh related by a frame and a numbering; elements and faces between them | invariance of the face terms under orthogonal frames and exchange of sides; intertwining of every integrator; induction over the steps |
| C135–C137 | the same operator and integrators | symmetry of the weak form under the reading; commuting symmetric functions of the operator; linearity of the steps; differential inequality for the residual |
| C138 | lists of straight and curved elements; the product with rows of both kinds | rows one by one: C129 needs only the element of the row and its faces; a partition of the rows; scaling argument and a bent triangle as counter-examples |
| C139–C140 | initial fields: modes and Gaussian pulses as functions of position; Maxwell's equations for functions of position and time | derivatives of the standing and travelling waves; divergence at chosen points for the fields that start no solution; pulses of two dimensions as an integral of plane waves over all directions and frequencies, differentiated under the integral, with the Fourier transform of the Gaussian |
| C141 | elements as polynomial maps of the reference simplex, shape functions as polynomials, quadratures as lists of points; volume and face matrices as the integrators sum them | Dirichlet's formula for the integral of a monomial, divergence theorem for polynomials on the simplex, Piola identity, Nanson's formula, degree counts; counter-examples on a bulged square and a stretched cube |
| C142 | mass matrices element by element, their inverses, the vectors of materials, the faces with their normals | positivity of the integral of a square times a positive Jacobian on the simplex; block inverses over a partition of the degrees of freedom; normals by Nanson's formula; then C17, C118 and C119 apply |
| C143 | fields as polynomials of the position on every element; Maxwell's equations, tangential continuity and boundary conditions stated for them, without quadratures | chain rule turns the curl of the polynomial into the volume matrices (C141's degree counts make them exact); every flux vanishes at every quadrature point; the mass matrix is invertible (C142) |
| C144 | smooth fields of time and position; meshes of straight elements with bounds on size and thinness; the operator of Galerkin and GalerkinMass | Taylor polynomials at a corner of each element with a bound of the remainder; trace inequality of polynomials on the simplex; the residual of the Taylor field in the equations on the mesh is of order h^p; stability (C142, C137) turns it into the error |
| C145 | test functions as polynomials of the position on every element; charge as minus the integral of the field's flux density times the gradient | the gradient of a test function is an admissible field of C143 without curl, so the operator makes losses of it only; reciprocity (C135) carries this to the rate of every field; linear invariants are kept by every integrator |
| C146 | elements as polynomial maps of the reference simplex or cube, placements of faces on them, the orders the code asks of quadratures | Fubini for polynomials on the cube, divergence theorem on the cube, degree counts in each variable, Leibniz formula for the Jacobian; then as C141, C142, C118, C119 |
| C147 | frequencies, impedances, answers of Eigen with what it promises; circuits as sums of partial fractions with a direct term | the circuit solves the linear system exactly, so the least squares does; two rational functions that agree at 2n+1 points are equal; roots of the companion's polynomial (C92); uniqueness of the residues by a Cauchy argument |
| C148 | permittivity, wave number and impedance with principal square roots; line parameters written out | squares and signs of real parts fix the branch of each root; cosh times conjugate sinh in closed form with sinh x > x and sin x >= -x; x/tanh x tends to 1 |
| C149 | heights of elements as determinant over length of normal; what MFEM reports about edges, faces and nodes | inverse and trace inequalities for polynomials on the simplex by equivalence of norms; every term of the tested operator is bounded by Young's inequality with the height; twice the volume over the border is at most each height; C119 |
| C150 | derivatives in time of a solution, which are solutions too | the initial values are smoothed with the resolvent of the operator so that its high powers are bounded independently of the mesh; the smoothed run is compared with the exact semi-discrete solution (C122), that one with the Taylor polynomials (C144), and the run with the smoothed run by contraction (C118, C119 with the step of C149) |
| C151 | the whole solver: options, construction, main loop, step, probes with an arbitrary reading of the fields | the state after k turns of the loop is written in closed form; the loop stops because the clock rises by a positive step; the error at each recorded time is C150's |
| C152 | as C151, with the reading of a point in a cell | the energy of one cell bounds its coefficients from above by the inverse inequality and the determinant from below by the shape of the cell; the interpolant is close at the point by Taylor's formula |
| C153 | cases assembled from a mesh with marked faces; total-field and scattered-field regions; waves sampled at nodes | a weak form with sources: the injected terms replace the jump of the stored field at marked faces by the jump of the total field, up to the interpolation error of the waves; then C144's residual bound and C122's time error |
| C154 | every rank is a program of collective calls, exchanges with neighbours and local branches; a call is left when all have entered it | programs of two ranks are alike up to the data; an invariant says that the logs are prefixes of matching programs; some rank can always move and every move uses up the program |
| C155 | the file as text, rank zero rewriting it chunk by chunk, barrier, reading chunk by chunk, any number of rounds | an invariant relating the file to the phase of rank zero; in the last round the barrier separates writing from reading; a schedule for the violation |
| C156 | as C155, with a stop after any step | the same invariant |
| C157 | MFEM's `Threshold` and `PrintCSR2` on the merged matrix, numbers as printed digits, a reader of both files | the reader inverts the writer up to rounding; each term is within the rounding of both factors; C04 and the layout of C01 for the fields; a witness with seven digits |
| C158 | the operators of C142 on meshes of segments and triangles of order one, the automatic time step, RK4 | the saw-toothed field is an eigenvector of the spatial operator: its curl vanishes against every test function, its jumps are multiples of itself; the integrator multiplies eigenvectors by its polynomial |
| C159 | the iterative branch of the implicit solve; the library as minimal residual over Krylov spaces, restarted, with its iteration limit and tolerance | the minimal residual beats Richardson iteration; perturbed stages of C118; witness: iterations carry values one cell each, the solution does not vanish 400 cells away |
| C160 | polynomial fields of the position on the meshes of Straight | composition with the map of the element keeps the degree in each variable; the adjugate turns the curl into the volume matrices exactly (C146's degree counts); fluxes vanish at every point of a face; nodes give uniqueness |
| C161 | smooth fields on the meshes of Straight, size and thinness in terms of the determinant and the normals anywhere on the element | as C144, with the remainder of the Taylor polynomial bounded on the convex hull of the element and a trace inequality for polynomials of bounded degree in each variable |
| C162 | the nodal operator of C129 with data read off a straight mesh of triangles or tetrahedra, and the assembled problem of C142 on the same mesh | straight simplices: reference matrices scale by determinants and face Jacobians; shape functions off a face vanish on it; the nodes of a face pair up because the map of an element is one-to-one; then C129 step by step and C150 |
| C163 | the messages on thin layers with the two flags of the process, the sub-steps of C27 | induction over histories: a flag once set silences the rest; the verdict against the skin depth by squaring; witnesses with two layers and with a long step |
| C164 | the evolution object of SgbcEvol on one rank and on a rank with part of the nodes and layers | the layers of the whole are dealt out in order; by induction over the list each own layer reads, advances and injects as on one rank, the last write to an own entry is the same, rows of the operator refer to own nodes; induction over requests; witnesses with one loud and one weak layer |
| C165 | the loop of TimeLoop with every operation rounded by an arbitrary rounding to nearest among 53-bit numbers | rounding is monotone, exact on differences within a factor of two, and has relative error 2^-53; invariant on the clock; descent for termination; the gap around a double for the endless runs |
| C166 | the assembly of all the tables of the nodal operator from the faces of the mesh | entries of the coupling matrix of a face give the pairs (C86); sorting makes them ascend; blocks of equal length give positions; a run of nodes occurs at one place only because runs across two faces do not ascend; induction over boundary elements; composition with C129; witness with single-node elements |
| C167 | the assembly of Straight (C146) and test functions that are polynomials of the position on every element | the gradient of a test function obeys interfaces and walls, so the operator makes only losses of it (C160); reciprocity (C135) moves the operator from the gradient to any state; every integrator keeps linear functions that the rates keep |
| C168 | the attributes of the boundary elements of the sub-mesh around a surface, the markers of tags and of the far field | searches in injective tables find the face; induction over the boundary elements of the parent; witness with a boundary of tag 201 |
| C169 | the search for the nearest point of the face rule | the search keeps a nearest point, by induction over the rule; constant normals on straight faces; a parabola and any rule with points strictly inside |
| C170 | the evolution operator and the integrators as in C118 | reciprocity and the conservation of energy (both as forms) together say that reversing the magnetic field reverses the rate; a step of a symmetric integrator read from right to left is a step; induction over the steps with uniqueness of each step |
| C171 | the evolution operator and the integrators as in C118 | the blocks of the exchanged problem are a permutation of the exchanged blocks, coefficient by coefficient; exchange is linear and intertwines the operators, so it does the runs |
| C172 | the evolution operator, the integrators as in C118 and the automatic step as in C12 | weak form, term by term; a step with the operator divided and the step multiplied by the ratio is the same step; minima and areas scale |
| C173 | the evolution operator and the integrators as in C118, on a mesh and on that mesh with its mirror image | weak form, term by term: a face and its image test the image of the test function; on a face in the plane the flux from the image side is that of the wall; unfolding is linear and intertwines the operators, so it does the runs |
| C174 | the evolution operator as in C01, with the unknowns assigned to elements as in C133 | the energy identity of C01 for the fields of the region alone, plus the weak form of the fields outside tested with those inside, where only faces of the surface are left |
| C175 | meshes, mass and flux matrices, the evolution operator and the integrators as in C145 and C167 | the gradient is admissible and has no curl, so every tested rate is the conduction loss, which is zero; each integrator carries along what the operator takes to nothing, by uniqueness of the stages |
| C176 | `prepareExportDirectories`, the end of the constructor of `Solver`, `writeSimulationStatistics`, the tag of the mode of a run | files as in C100; the operations that touch one file are those of its rank, in order, after the removal; the digits of a number determine it, so tags differ |
| C177 | modes `v exp (l t)` of the assembled operator, over ℂ, in Spec/OpModes.lean | the energy form pairs the real and imaginary parts; neutral modes through the dissipation of `x + s p`; pairs from time reversal (C170) |
| C178 | fields after every step of `TimeInt.run`; energy, power and heat as in C01 and C174 | relation of consecutive fields per integrator, energy form of a part, telescoping |
| C179 | folders of surface probes of any history of runs; names `rank<r>`, the pattern, the sorted listing, reading and the result folders | invariant over histories: every folder of a rank belongs to a rank of its mode; the operations of an execution on a file are those of its rank; sorted lists that are permutations are equal |
| C180 | the constructor of the exporter throws on a rank without a face of the surface | the programs of the ranks are total when every rank has a face; otherwise no execution finishes |
| C181 | runs on given ranks with pieces of a surface and numberings of unknowns; the post-processor on the files they leave | C179 gives the pieces and snapshots read; relabelled they are a permutation of the whole surface with the fields of the whole problem; C48 |
| C182 | the post-processor of C48 on records of fields known at all times; instants recorded by the loop of C01 | transforms are Riemann sums on nearly even instants, uniformly continuous integrands; finite sums, products and quotients of limits; the instants of a run lie within ten record intervals of even ones |
| C183 | the diagnostics of the partition post-processing | the loads kept up to date are the costs of the ranks (C15); counting by tag and by face; groups as classes of linked elements |
| C184 | A case (materials, boundaries, faces, attributes) and a mesh for sub-meshing, with a renumbering of groups | the maps of C17, C18, C20 and C21 read through their specifications, which a one-to-one renaming respects; for the regions a relation between the two numberings kept by every tagging step; witnesses for the reserved numbers and for the default material |
| C185 | The case of C184 and a permutation of its entries; lists of sources | the first entry that lists a group gives the same value in any order if all such entries agree; vectors of values depend on the map only; sums over sources are invariant under permutations; witnesses for the exceptions |
| C186 | Two simulations (Model/Simulate) that differ in their lists of probes | a relation between the two solvers kept by every step: equal clock, fields and operator state, and equal common probes; induction on the iterations |
| C187 | two simulations with different final times on the model of a whole simulation | lockstep of the two runs until the next instant passes the earlier final time; later records are not seen (`Props/Longer`) |
| C188 | a whole simulation with thin layers (`Model/SimLayer`: checkpoint, explicit step through the right-hand side that changes the layers, end of the step) | the state without fields is kept by every step; the number of steps is bounded by the final time |
| C189 | two simulations with thin layers (`Model/SimLayer`) that hold the same fields and layers | relations between the two evolution objects, one for the middle of a step (same checkpointed fields) and one between steps (same layers), kept by every evaluation and every step; induction on the iterations |
| C190 | the run of Model/SimLayer without layers and neighbours | forward simulation: `Mult` answers A x and leaves an object without layers, so each step is the plain one |
| C191 | `SimLayer.advance`: checkpoint, four stages, end of the step | the stages keep the checkpoint and the frames (`rk4_keeps`), the end of the step restores the fields from it, and the serial loop is the pure advance of each layer |
| C192 | the whole run of Model/SimLayer, in which every access out of range, every missing checkpoint and every overflow of the number of sub-steps is a failure | totality of each part under `Fits`, carried through a step with C191 (frames are kept), then induction on the number of steps left |
| C193 | the 1e-20 threshold applied to the merged operator, over any ordered field, and explicit runs with the thresholded operator | per-row bound from the no-repetition property of the merge; discrete Duhamel argument on the powers of the step polynomial; scaling of the operator for the violation |
| C194 | the thresholded operators of the ranks (`builtOperator` of `rankBlocks`) and of one rank | a row of a thresholded operator is determined by what the row does to the fields (`threshold_form`); the rows act alike by C124 and columns a rank does not hold are zero |

MPI, OpenMP and GPU execution are not modelled as such; where a property is
about them (C26, C48, C52, C100, C105, C124-C126) the model quantifies over schedules, task orders or
distributions explicitly.

## Axioms

`AXIOMS.md` lists, for every theorem named in `MANIFEST.json`, the axioms
reported by `#print axioms`.  They are always among `propext`,
`Classical.choice` and `Quot.sound`.

## What is modelled

Model modules (under `lean/Verif/Model/`) and the code they follow.

| module | code |
|--------|------|
| Csr | `mergeBlocksToCSR`, `loadBlockInGlobalAtIndices` in `components/DGOperatorFactory.h` |
| Op | face matrices of `mfemExtension/BilinearIntegrators.cpp`, boundary coefficients of `mfemExtension/IntegratorFunctions.cpp`, block placement of `buildGlobalOperator` in `components/DGOperatorFactory.h` |
| Integrators | quadrature loops of `mfemExtension/BilinearIntegrators.cpp` and `LinearIntegrators.cpp` |
| FaceKinds | `mfemExtension/BilinearIntegrators.cpp` 151-280, 414-624 (decoupled, absorbing and total-field integrators; more than two directions, which throw, are not modelled) |
| OpMaxwell | `MaxwellEvolution::Mult` and its operator table |
| Fields | `evolution/Fields.h`, index helpers of `DGOperatorFactory.h`, `getOffset` of `EigenvalueEstimator.cpp` |
| TimeLoop | `Solver::run/step`, the gate of `ProbesManager`, `recalculateExportSteps` |
| TimeStep | options, their validation, automatic time step (`solver/Solver.cpp`) |
| Mor, Movie | the reduction probe; the movie map of `components/Probes.h` |
| Partition, PartitionReport | `applyPairwiseConstraintsPartitioning`, its disjoint-set forest and what it prints (`driver/driver.cpp`) |
| Gmsh | `fixGmshMesh` (`driver/driver.cpp`) on characters |
| Launch | argument parsing of `launcher/*.cpp` and the paths of `driver.cpp` |
| Config | materials, boundary tags, markers (`driver/driver.cpp`, `components/Model.cpp`, `Material.cpp`) |
| Layer | `components/Material.cpp`, segment count and highest frequency of thin layers (`driver.cpp`) |
| SourceCfg, Sources, Wave | `buildSources`, `SourcesManager`, `math/Function.h`, automatic delays |
| Spherical | `components/Spherical.cpp` |
| SgbcMesh, SgbcSub, SgbcEvol, FaceRotation, Implicit | thin layers: `solver/SolverExtension.*`, `evolution/GlobalEvolution.*` |
| SubMesh, NodalSide | `components/SubMesher.cpp`, `calculateCrossBaryVertexSign` use of the nodal operator |
| NodalMaps, Nodal | `evolution/HesthavenEvolutionMethods.*`, `HesthavenEvolution.cpp`, `math/Geometry.cpp` |
| SurfaceFile | writer and reader of the surface file, at byte level |
| Rcs, RcsDriver, RcsWave, FarField | `RCSSurfacePostProcessor.cpp`, `rcs_driver.cpp`, `FarField.cpp`, `RCSManager.cpp` |
| Decimal | numbers written as text by `ProbesManager.cpp` and `RCSSurfacePostProcessor.cpp` |
| ProbeFiles, ProbeCfg | files of probes over all ranks (`ProbesManager.cpp`), `buildProbes` of `driver.cpp`, `buildSurfaceMarker` |
| Device | `evolution/GlobalEvolution.cu` and the CUDA branches of `GlobalEvolution.cpp` |
| OpSource | source operators of `components/DGOperatorFactory.h` and their use in `evolution/GlobalEvolution.cpp` `Mult`: plane waves on the total-field surface, thin-layer passes, `fillBCSlot` |
| SgbcInit | constructor of `evolution/GlobalEvolution.cpp` 47-308 (pairs of nodes, states, element lists), copies of states in `solver/SolverExtension.cpp` |
| OpMaxwellSource | source part of `evolution/MaxwellEvolution.cpp` 49-105, 275-332, `MaxwellTransferMap` additions; projections of the wave are given as nodal values |
| Spectral | `solver/Solver.cpp` 79-149 (option), 554-737, `evolution/MaxwellEvolutionMethods.cpp` 35-55, `components/EigenvalueEstimator.cpp`, `components/OptimizationManager.cpp` 30-39; eigenvalues are inputs |
| TimeInt | `solver/Solver.cpp` 22-77, 532-549, `solver/SolverOptions.h` 8-18; the steps of the integrators of MFEM are written from its documentation, the iterative solve is in Gmres |
| Par | `components/DGOperatorFactory.h` 61-81, 162-174, 467-573, 1269-1361, 1427-1560 on a rank with face neighbours, `evolution/GlobalEvolution.cpp` 757-814, 1112-1137, 1176-1231, `evolution/MaxwellEvolution.cpp` 28-37, 200-273; MFEM's shared-face assembly and the first test of its GMRES are written from its documentation |
| ParSource | `evolution/GlobalEvolution.cpp` 551-626, 757-826 on several ranks, `components/DGOperatorFactory.h` 1405-1428 on a rank |
| NodalAssembly | `evolution/HesthavenEvolution.cpp` 27-54, 74-78, 126-205, 349-366, 450-542, `evolution/HesthavenEvolutionMethods.cpp` 35-57, 165-198, 257-300, `components/Model.cpp` 43-51; linear elements |
| NodalCurved | `evolution/HesthavenEvolution.cpp` 207-273, 404-448, 450-542 with curved elements; positions of the nodes and the product by the global operator are inputs |
| Mode | `math/Function.h` 45-104, 145-168, 429-556 (Gaussian, sinusoidal and reference modes); `driver/driver.cpp` 368-391; `components/Sources.cpp` 37-57. Bessel initial fields are not modelled |
| Galerkin | `mfemExtension/IntegratorFunctions.cpp` 7-60 (orders of the quadratures); `mfemExtension/BilinearIntegrators.cpp` (derivative and face integrators over polynomial elements); the derivative matrix of `components/DGOperatorFactory.h`. Elements are polynomial maps of MFEM's reference simplex (or square, cube) with polynomial shape functions; MFEM's rules are lists of points with the degree of exactness as hypothesis |
| GalerkinMass | the mass matrices of `components/DGOperatorFactory.h` (`buildInverseMassMatrixSubOperator`, `buildSigmaMassOperator`) with the vectors of `components/Model.cpp`; assembly over a table of degrees of freedom. MFEM's `MassIntegrator` and its order of quadrature are part of the model (MFEM is not in the repository), its rules are lists of points with exactness as hypothesis |
| Spec/Polynomial | no new code: the operator of Galerkin and GalerkinMass on fields that are polynomials of the position | as for GalerkinMass |
| Spec/Convergence | no new code: the operator of Galerkin and GalerkinMass on samples of smooth solutions | straight elements; smoothness up to the boundary of each element |
| Spec/Charge | no new code: the operator of Galerkin and GalerkinMass tested with gradients | weak divergence against continuous test functions |
| Straight | straight meshes with quadrilaterals and hexahedra: placements of faces, orders of quadratures (setIntegrationRule), normals, assembly | MFEM default quadrature orders and reference elements assumed; prisms and pyramids left out |
| PoleSolve | SIBCPoleResidueFitting.cpp: target impedance, scaling, weights, both systems, quality of one fit | Eigen's solvers as exact least squares and eigenvalues |
| PoleFit | `components/SIBCPoleResidueFitting.cpp` |
| GalerkinSource | marked faces and source sub-meshes of `buildTFSFGlobalOperator`; the source term of the implicit solve (`evolution/GlobalEvolution.cpp` 1139-1144); (`components/DGOperatorFactory.h` 1364-1428) and `GlobalEvolution` 318-350, for matrices assembled from a mesh | one rank (ParSource splits it); membership of faces and elements in the sub-meshes is given |
| Collective | the MPI calls of `buildModel`, `Solver` (constructor, `run`, `step`), `ProbesManager`, `SourcesManager`, `GlobalEvolution` (`Mult`, `ImplicitSolve`) | calls inside MFEM (construction of meshes, spaces, attribute lists) not modelled; what ranks compute is arbitrary data |
| MeshRead | `driver/driver.cpp` 1083-1183, 1242-1260: rewriting, barrier and reading of the mesh file | the reading of rank zero inside the rewriting is one event; parsing by MFEM not modelled (the text read is what is compared) |
| Export | the end of `buildGlobalOperator` (`components/DGOperatorFactory.h` 1564-1600) with MFEM's `Threshold` and `PrintCSR2` | `_tfsf.csr`, written the same way, not modelled; characters of numbers not modelled (as in Decimal) |
| Gmres | `GlobalEvolution::ImplicitSolve`, the branch for large systems; `mfem::GMRESSolver` by its documentation: minimal residual over Krylov spaces, restart, iteration limit, relative tolerance, start from the vector given | exact arithmetic; norms and products on one rank; how the minimum is found is not modelled |
| (NodalFem) | no new code: `Spec/NodalFem` says how the data of NodalAssembly are read off the straight meshes of Galerkin | triangles and tetrahedra, same nodes in all elements |
| SgbcReport | `checkSkinDepthResolution`, the end of the constructor and the beginning of `solve` of `SGBCWrapper` (`solver/SolverExtension.cpp` 407-433, 444-486, 512-557) | the numbers printed beside the verdict not modelled; one thread |
| (SgbcRanks) | no new code: `Spec/SgbcRanks` says when an evolution object of SgbcEvol is the part of another one that a rank holds | no plane-wave sources; both sides of a layer on one rank |
| Split | the part of `driver.cpp` that collects what must share a rank from the input file and hands it to the partitioner | the file is the parsed value of `Model/Config` |
| FloatClock | `Solver::run` and `Solver::step` as seen by the clock, with rounded arithmetic | exponents unbounded; the integrators of the library advance the time by one rounded sum |
| NodalConn | `Connectivities` of HesthavenEvolutionMethods: `assembleGlobalConnectivityMap`, `appendConnectivityMaps…`, `initBdrConnectivityMaps`, `initIntFaceConnectivityMaps`, `loadIntBdrConditions` | sub-mesh extraction by library facts stated in the file; the sign of a total-field face is given (C91) |
| ChildBdr | SubMesher.cpp 310-357, FarField.cpp 112-118 | tables of faces and boundary elements of parent and sub-mesh, first attributes on the sub-mesh (MFEM) are parameters |
| NodeNormal | SubMesher.cpp 116-197 | map of the face into the element and normals at points of the face (MFEM) are parameters |
| Stats | `prepareExportDirectories` (driver.cpp 1626-1645), `getRunModeTag`, Solver.cpp 131-150, 356-367, 404-443 | blocks written whole, values as numbers; opening files succeeds; clock and memory readings are given |
| SurfaceDirs | RCSSurfaceExporter.cpp 10-72, 154-164 as files; `findRankDirs`, which files `readRankData` opens, and the output of `computeAndWriteResults` (RCSSurfacePostProcessor.cpp 26-38, 75-80, 185-226, 449-483) | files are lists of pieces (bytes: SurfaceFile); a directory is there when a file in it is; probes have distinct names |
| SimLayer | `src/solver/Solver.cpp` 483-551 with thin layers: checkpoint, explicit step, end of the step of the layers, probes; MFEM's RK4 as described by its source | implicit integrators with thin layers, the parallel task loop (C26) |
| Simulate | `Solver` (constructor, `run`, `step`), `ProbesManager::updateProbes` with records that hold what a probe reads | one process; no thin layers; sources empty; `Spec/Simulate` has the readings of point probes |

`Assoc` (association lists for `std::map`) and `Writes` (sequences of array
writes) are helpers without counterpart.

## What is not modelled

* Floating-point rounding, overflow, infinities and not-a-numbers, except where
  a definition says so (`SurfaceFile` keeps bit patterns; `PoleFit` keeps
  not-a-number as `none`).
* MFEM itself: finite element spaces, quadrature rules, mesh I/O, sub-meshes
  (only what the properties need is a hypothesis: exact
  integration by parts, non-negative weights, the answers of mesh queries).
* Eigen's and MFEM's direct linear solvers (idealised as exact; the iterative one
  by what it minimises, see `Gmres`); `calcResidues` and the impedance formula of the
  pole fit; METIS.
* MPI messages (an exchange is a table of owners, see `Par`), ParaView/GLVis output, timing and console output.  GPU execution
  only as far as `Device` goes; MFEM's memory manager is taken as documented.
* The reading of JSON text (decoded members are the input of the model).
* `math/EigenMfemTools.h`, `OptimizationManager` and the spectral analysis of
  `Solver.cpp` beyond what a theorem cites.

## Where the code does not do what a user expects

Every item is a theorem (`…_violated…` unless named) with a concrete witness or a
general statement.  The corresponding property stays `partial`.

* C03: the `maxwell` operator drops the conductivity.
* C07, C77: negative time steps are accepted and the run never ends.
* C08: with steps longer than one unit the last instant is not recorded.
* C16, C70: a second repair of a mesh can delete more; quadrilaterals and
  hexahedra are not recognised.
* C22: only the first total-field source is marked.
* C23 (`C23_empty_layer_vanishes`): a layer with no segments vanishes.
* C27: sub-steps shorter than 1e-9 are skipped, so thin layers freeze.
* C32: the fallback evaluation keeps only the last source and the `maxwell`
  operator multiplies it by their number.
* C36, C83, C84: regions conflict when faces disagree (last one wins); the
  closest-to-centre rule is wrong for some convex surfaces; sides follow the
  numbering in the plane; in one dimension the scattered side can be missing;
  reserved attributes clash.
* C43: one-dimensional nodal connectivity has a wrong stride.
* C45: fits made of not-a-numbers count as stable and exact.
* C47: a truncated surface file yields a zero- or stale-filled snapshot.
* C50: the phase at the origin is 0/0.
* C54, C95: cases without plane wave are normalised with placeholders; waves
  whose mean is downstream of the origin, or several waves, with a pulse that was
  not launched.
* C55, C69: merging multiplies the normalisation; the two far-field
  implementations differ by π² in two dimensions, by the number of samples, and
  on several ranks.
* C60: restoring attributes skips element zero.
* C61: four integrators (not used by the solver) keep one quadrature point.
* C65–C67: layers that share an element, exterior layers, implicit integrators.
* C68: repeating a direction or frequency scales its result.
* C71–C73: an attribute used inside and outside loses the outer condition;
  absent boundary tags are ignored or written out of bounds; attributes without
  material read zero permittivity or out of bounds.
* C74: a plain Gaussian next to a modulated one is ignored.
* C75: names that contain `.json` or `.mesh`.
* C76: stepping over the end of the window loses the last snapshot.
* C78: order zero, and the nodal operator on partitions, read out of bounds.
* C80: points away from the face centroids can see the pulse at time zero.
* C81, C82: initial fields of unknown kind are ignored; vectors of wrong length
  are read or written out of bounds.
* C83: on a line with two points the first one listed is taken for the left one.
* C85: the recorded side of the near-to-far-field surface follows the numbering; in space the face number recorded next to the first element is the
  number of the face in the second.
* C88, C89: absorbing boundaries of the nodal operator create energy for α < ½;
  conductors inside the mesh create energy for every α.
* C91: the nodal and global operators disagree on the total-field side.
* C93: only the first layer is fitted.
* C97: on several ranks a reduction snapshot keeps the state of one rank.
* C98, C99: time stamps and file names collide for close instants or directions.
* C101: far-field and reduction snapshots of earlier runs are not cleared.
* C102: a probe outside the mesh reads element -1.
* C103: `saves` in a case with automatic time step reads an absent member; `steps`
  zero divides by zero; `steps` next to `saves` is ignored.
* C104: surface tags outside the mesh's range are written out of bounds, absent
  ones below the largest are ignored.
* C105: on the device plane waves are lost and thin layers read an old copy of
  the fields.
* C106: waves whose nodal norm on the total-field surface is below 1e-8 are not
  launched, whatever the units of the case.
* C108: absorbing surfaces of thin layers show the field its own value, so no
  flux acts there; energy can be created.
* C109: a tag listed in two thin-layer definitions has its states advanced with
  the solver of the last definition, past the end of smaller states.
* C110: the direction in which layers are stacked follows the numbering of the
  elements, and can change along a sheet.
* C112: thin layers on lines assume elements numbered from left to right; outer
  thin layers in two and three dimensions read element -1.
* C113: the `maxwell` operator launches waves as if the medium at the
  total-field surface were vacuum, launches only the last of several waves
  (once per wave), and has no threshold for weak waves.
* C114: with centred fluxes the spectral matrix leaves out the damping of
  absorbing faces.
* C115: the eigenvalue estimator has every flux term with the wrong sign and
  leaves out the third direction of the penalty terms.
* C116: `findMaxEigenvalueModulus` ignores moduli above one.
* C117: `spectral` uses the time integrator before it is created; its check
  evolves the vector of eigenvalues as if it were a field.
* C120: the automatic time step looks at the mesh only; with conductivity the
  default integrator can blow up although every field dies out.
* C121: `maxwell` and `hesthaven` accept the implicit integrators and stop at
  the first step.
* C126: the iterative solver of an implicit step on several ranks is built
  without a communicator; every rank stops on its own residual, so neighbours
  can make different numbers of exchanges.
* C127: every rank compares the norm of its own incident values with the
  threshold; a weak wave launched on one rank is not launched on two.
* C129: the nodal operator does not read the materials: permittivity,
  permeability and conductivity are ignored.
* C129: the reference mesh of quadrilaterals is the unit square, but the
  reference volume is that of the square of side two: derivatives and fluxes
  are multiplied by four.
* C129: walls inside the domain get half of the flux they get in the global
  operator; the absorbing condition agrees only for fully upwinded fluxes. The
  driver only rejects absorbing conditions with a centered flux.
* C130: in space the reference matrix is always that of a tetrahedron, so
  with hexahedra the sizes of the first product do not match.
* C136: plane waves are skipped below a threshold, so superposition fails for
  waves of about that size; the effect is bounded in C136_waves_partial.
* C138: an element is taken for curved if one of its nodes moves by more than
  1e-5 when the mesh is straightened. The tolerance is absolute, so small
  geometries are never curved; with first order the nodes are the vertices, so
  curvature is never noticed and straight formulas are applied to curved
  elements.
* C139: the number of modes is not compared with the dimension of the mesh; the
  resonant field is the state of a cavity only on a line and in the plane with
  polarisation across; in three dimensions it has a divergence. The reference
  functions for the magnetic field of the plane mode swing in phase with the
  electric field.
* C140: the size of the centre is not compared with the dimension of the mesh,
  nor the dimension of the pulse. Pulses polarised along their line or in their
  plane, and all pulses of three dimensions, have a divergence (`C140_along_fails`,
  `C140_plane_fails`, `C140_space_fails`).
* C141: the order of the volume quadrature, 2p − 1 + (dim − 1)(m − 1), is the
  degree of the integrand on simplices only. On quadrilaterals with positions of
  the third order and on hexahedra with positions of the second order it is too
  low; discrete integration by parts fails and with a conservative flux some
  field gains energy. In a curved mesh of several kinds of elements the rule is
  chosen for the geometry of element 0 and used on all elements.
* C147: the linearised system has a numerator of the degree of the denominator, so
  an impedance with a value at infinity is fitted by the first step; the partial
  fractions of the second step have no direct term and lose it.
* C149: the automatic time step is a multiple of the thickness of the elements
  and ignores the conductivity. In a conductor with sigma dt >= 3 eps the explicit
  integrator makes a uniform field grow by a factor 11/8 with every step.
* C154: an implicit integrator on several ranks hangs when the linear solvers of
  neighbouring ranks need different numbers of products (the solver of each rank
  stops by its own norm, see C126). Invalid options stop rank zero only; the other
  ranks wait for it forever.
* C155: the mesh is read twice if the case has boundaries and materials. Rank zero
  rewrites the file before the second reading without waiting for the other ranks
  to finish the first, so they may read an empty or truncated mesh.
* C156: the mesh file of the user is emptied and rewritten in place at every start;
  a stop in between loses it.
* C157: the operator is exported with six digits, the snapshots with seventeen; and
  a snapshot starts with the instant, while the documentation says with the number
  of values.
* C158: at order one the default CFL number is too large for the default upwind
  parameter: in a metallic box filled with vacuum a saw-toothed electric field, which
  the upwind terms should damp, grows by 31 at every step on segments and by 5 on
  triangles.
* C159: the iterative solve of an implicit stage never checks that it converged, and starts from whatever its vector holds. The vector is sized by the library's integrators before the call, so the code's own choice of a start (the right-hand side) is never made: on the first solve the start is uninitialised memory, and the tolerance is relative to its residual. With fields at rest and no sources the rate returned is then proportional to that content instead of zero. For steps of a few hundred crossing times of a cell 400 iterations are not enough on a line of 803 cells and the unfinished answer is used.
* C163: the resolution of thin layers is examined for the first wrapper of the process only (a function-local `static` flag), so a severely coarse
  layer that is not the first one is never reported; the warning about a time step longer than recommended compares the sub-steps, which never are,
  so it cannot appear and "Temporal OK" is printed instead.
* C164: whether all layers are quiet is decided on every rank for itself, so a layer below the threshold is treated differently depending on whether
  a loud layer happens to be on the same rank: with it, it is injected and advanced; without it, it stands still.
* C165: the slack of the loop test is 1e-8 steps; when the final time is more than about 10^8 steps the rounded difference is the final time itself, the
  test stays true at the final time and the solver makes steps of length zero for ever.
* C166: with elements of a single node (order zero) the search for the nodes of a boundary face finds the first face of the element, so conditions land
  on the wrong face.  A mesh whose boundary elements all lie inside makes the constructor throw (`isInteriorMap.at(false)`).
* C168: the sub-mesh around a near-to-far-field surface marks the surface with attribute 201; a boundary of the user with tag 201 next to it is integrated over as well.
* C169: on curved faces the layers use the normal at the nearest Gauss point, not at the node.
* C179: a run that stops while its ranks open the files of a surface probe leaves folders of two runs; the post-processor adds them up without noticing.
* C180: a rank whose part of the mesh has no face of the surface of a surface probe throws (`ntff submesh is empty`), so such a case runs on one rank and not on several.
* C36: a single marked point between the first two segments of a line: the local face recorded for the first segment is the one at the end of the mesh (`C36_line_faces_fails`).
* C184: a group numbered 777, 1000, 2000, 3000 or 4000 is taken for one of the tags used for sub-meshing, and a case without materials gives vacuum to group 1 only (any other group reads outside the vector of values).
* C185: the order of the entries decides when two materials or two boundaries list the same group, when two incident fields enter through different groups (only the first surface is used), and for several incident fields with the operator `maxwell` (only the last one is projected).
* C193: the threshold under which entries of the operator are dropped is absolute, so the result depends on the unit of length; in a small enough unit the whole operator is dropped and nothing moves (`C193_violated`).
