{"id": "C01", "title": "The spatial operator never creates energy", "statement": "With upwinding factor alpha >= 0, positive permittivity and permeability, non-negative conductivity and any mix of PEC, PMC and SMA boundaries (exterior or interior), the time derivative returned by the global evolution operator for a source-free problem makes the discrete electromagnetic energy non-increasing.", "quantifier": "every mesh, polynomial order, material distribution, boundary assignment, alpha >= 0 and field state", "why_tests_cant": "A test runs a handful of meshes and states; a growing mode needs only one unlucky mesh/state pair.", "anchors": ["src/components/DGOperatorFactory.h: buildGlobalOperator, collectGlobal*", "src/mfemExtension/BilinearIntegrators.cpp", "src/mfemExtension/IntegratorFunctions.cpp: buildFaceMatrix"]}
{"id": "C02", "title": "Centred fluxes conserve energy exactly", "statement": "With alpha = 0, zero conductivity and only PEC/PMC boundaries the discrete energy is exactly constant along the global evolution operator.", "quantifier": "every mesh, order, material distribution and field state", "why_tests_cant": "Exact conservation is an algebraic identity over all states; sampled energies only show it to rounding on the sampled states.", "anchors": ["src/components/DGOperatorFactory.h: buildGlobalOperator", "src/mfemExtension/BilinearIntegrators.cpp"]}
{"id": "C03", "title": "The choice of evolution operator does not change the physics", "statement": "For a source-free problem the 'global' and the 'maxwell' evolution operators return the same time derivative for the same fields.", "quantifier": "every mesh, boundary assignment, material and field state", "why_tests_cant": "Two separately written assemblies must agree term by term for all states; a test compares a few cases.", "anchors": ["src/components/DGOperatorFactory.h: buildGlobalOperator", "src/evolution/MaxwellEvolution.cpp: MaxwellEvolution::Mult"]}
{"id": "C04", "title": "Merging sub-operators into the exported CSR operator loses and duplicates nothing", "statement": "The compressed operator built from a list of placed, signed blocks is entry-by-entry the sum of those blocks, its row pointers delimit exactly the entries written, no row holds the same column twice, and no write falls outside the allocated arrays.", "quantifier": "every list of blocks, offsets and signs inside the global dimensions, in any order and with any overlap", "why_tests_cant": "Overlap patterns between blocks are unbounded; the two-pass count/fill agreement must hold for all of them.", "anchors": ["src/components/DGOperatorFactory.h: mergeBlocksToCSR, collectBlockPlacement"]}
{"id": "C05", "title": "Both assembly routes give the same operator", "statement": "Adding sub-operators one at a time into a global matrix and merging them all at once give operators with identical action.", "quantifier": "every sequence of blocks with any overlap", "why_tests_cant": "Needs all overlap patterns and insertion orders.", "anchors": ["src/components/DGOperatorFactory.h: loadBlockInGlobalAtIndices, mergeBlocksToCSR"]}
{"id": "C06", "title": "Field components never alias", "statement": "Reading or writing one field component (E or H, x, y or z) through the field API touches exactly its own degrees of freedom: the six components tile the whole state vector, and the E/H aggregate views are exactly the three E and the three H components.", "quantifier": "every space size, component and write", "why_tests_cant": "Aliasing shows only for particular sizes/offset combinations.", "anchors": ["src/evolution/Fields.h: Fields", "src/components/DGOperatorFactory.h: GlobalIndices", "src/components/EigenvalueEstimator.cpp: getOffset"]}
{"id": "C07", "title": "run() reaches the final time and does not overshoot", "statement": "For a positive time step, run() performs finitely many steps, time never exceeds the final time, every step is at most the nominal step, and on return the time is within 1e-8 steps of the final time.", "quantifier": "every final time, start time and positive time step", "why_tests_cant": "Termination and the last truncated step depend on the ratio of two reals.", "anchors": ["src/solver/Solver.cpp: Solver::run, Solver::step"]}
{"id": "C08", "title": "Probes record the first and the last instant and keep their cadence", "statement": "Every field, point, near-field, exporter, snapshot and RCS probe records at construction (t=0), at every multiple of its step interval and at the final time, and nothing else.", "quantifier": "every run length, time step and step interval >= 1", "why_tests_cant": "The record pattern is a function of the whole history of calls.", "anchors": ["src/solver/ProbesManager.cpp: updateProbe, updateProbes", "src/solver/Solver.cpp: Solver::step"]}
{"id": "C09", "title": "Requested number of saves is honoured within documented bounds", "statement": "When a probe asks for a number of saves, the derived step interval is at least one, and a full run yields at least the requested number of records when there are enough steps, and at most twice that number plus the initial and final records.", "quantifier": "every number of saves, final time and time step", "why_tests_cant": "Integer division and ceiling produce off-by-ones only at particular ratios.", "anchors": ["src/solver/ProbesManager.cpp: recalculateExportSteps"]}
{"id": "C10", "title": "Model-order-reduction snapshots stay inside their window and budget", "statement": "A MOR state probe writes at most the requested number of snapshots, numbered consecutively from zero, only at times inside the requested window and with strictly increasing target times.", "quantifier": "every sequence of time steps, window and number of saves", "why_tests_cant": "Depends on the whole time history.", "anchors": ["src/solver/ProbesManager.cpp: updateProbe(MORStateProbe)"]}
{"id": "C11", "title": "Invalid solver options are rejected", "statement": "A solver is constructed only for non-negative order and final time and a positive CFL (checked even when an explicit time step is given); every other combination raises an error.", "quantifier": "every option combination", "why_tests_cant": "Decision over unbounded domains.", "anchors": ["src/solver/Solver.cpp: Solver::checkOptionsAreValid"]}
{"id": "C12", "title": "Automatic time steps are positive and respect the mesh", "statement": "The automatic time step is positive for a positive CFL and non-degenerate mesh, scales linearly with the CFL, and never exceeds the bound of the smallest element.", "quantifier": "every list of element sizes, order and CFL", "why_tests_cant": "All meshes.", "anchors": ["src/solver/Solver.cpp: estimateTimeStep, calcMeshTimeStep, getMinimumInterNodeDistance"]}
{"id": "C13", "title": "Elements tied by a TFSF or SGBC face stay on the same rank", "statement": "After partition post-processing, the two elements of every tied pair, and every chain of pairs, are assigned to one rank.", "quantifier": "every mesh size, rank count, initial partition and list of pairs", "why_tests_cant": "Transitive chains of any length and any pair order.", "anchors": ["src/driver/driver.cpp: applyPairwiseConstraintsPartitioning"]}
{"id": "C14", "title": "Partition post-processing only moves what it must", "statement": "Elements in no tied pair keep their rank, every assigned rank is a valid rank, the number of elements does not change, and with one rank or no pairs the partition is untouched.", "quantifier": "every mesh size, rank count, initial partition and pair list", "why_tests_cant": "Same unbounded input space.", "anchors": ["src/driver/driver.cpp: applyPairwiseConstraintsPartitioning"]}
{"id": "C15", "title": "Partition load accounting is exact and greedily balanced", "statement": "The load used for balancing always equals the recomputed weighted load of the current assignment; the groups of linked elements are moved one at a time, most expensive first, each to a rank of minimum load at that moment; and in the end no rank costs more than it did before, or more than the average plus one group.", "quantifier": "every partition, weights and component list", "why_tests_cant": "History dependent bookkeeping.", "anchors": ["src/driver/driver.cpp: computeWeightedLoad, leastLoadedRank, assignComponent, applyPairwiseConstraintsPartitioning"]}
{"id": "C16", "title": "Mesh-file normalisation is stable", "statement": "Rewriting a Gmsh 2.2 file keeps the wanted elements in order, numbers them 1..n, states exactly n in the count line, copies the geometrical tag onto the physical tag, leaves everything outside the element section untouched, and doing it twice equals doing it once.", "quantifier": "every file content", "why_tests_cant": "Unbounded file contents.", "anchors": ["src/driver/driver.cpp: fixGmshMesh"]}
{"id": "C17", "title": "Every boundary attribute is classified once", "statement": "Each boundary attribute listed in the input becomes either an exterior boundary or an interior boundary, never both, and it becomes interior exactly when some interior face carries it.", "quantifier": "every mesh and boundary list", "why_tests_cant": "All attribute/face combinations.", "anchors": ["src/driver/driver.cpp: assembleAttributeToBoundary"]}
{"id": "C18", "title": "First definition of a material tag wins", "statement": "When several materials claim the same geometry tag the first one in the input is used, and every listed tag gets a material.", "quantifier": "every material list", "why_tests_cant": "All overlap patterns.", "anchors": ["src/driver/driver.cpp: assembleAttributeToMaterial"]}
{"id": "C19", "title": "Materials are physical", "statement": "A material can be built exactly when relative permittivity and permeability are at least one and conductivity is not negative; lossless materials have impedance times admittance equal to one and wave speed in (0,1]; asking a lossy material raises an error.", "quantifier": "all real parameters", "why_tests_cant": "Continuum of parameters.", "anchors": ["src/components/Material.cpp"]}
{"id": "C20", "title": "Every element sees the material of its tag", "statement": "The piecewise permittivity, permeability and conductivity vectors hold at position tag-1 the value of the material given to the tag.", "quantifier": "every tag-to-material map", "why_tests_cant": "All maps and gaps in the tags.", "anchors": ["src/components/Model.cpp: buildEpsMuPiecewiseVector, buildSigmaPiecewiseVector, initialiseGeomTagVector"]}
{"id": "C21", "title": "Boundary markers select exactly the tagged attributes", "statement": "The marker built for a boundary type is one exactly at the attributes declared with this type; non-positive tags raise an error.", "quantifier": "every tag map and attribute count", "why_tests_cant": "All tag sets, including out-of-range tags.", "anchors": ["src/components/Model.cpp: assembleGeomTagToTypeMap, getMarker"]}
{"id": "C22", "title": "Every total-field source illuminates its own faces", "statement": "With several total-field sources, the total-field/scattered-field marker contains the tags of all of them.", "quantifier": "every list of sources with tags", "why_tests_cant": "Only visible with several sources and particular tag sets.", "anchors": ["src/driver/driver.cpp: postProcessInformation"]}
{"id": "C23", "title": "The thin-layer mesh has the declared layers", "statement": "The one-dimensional mesh built for a surface impedance has the declared number of segments per layer, padded by the ghost elements on both sides, contiguous increasing vertices, per-layer attributes in order and its two interfaces at the first and last layer vertex.", "quantifier": "every number and shape of layers and number of ghosts", "why_tests_cant": "Unbounded layer stacks.", "anchors": ["src/solver/SolverExtension.cpp: buildSGBCMesh, getLeftInterfaceIndex, getRightInterfaceIndex"]}
{"id": "C24", "title": "The local frame of a thin-layer face is a rotation", "statement": "For each unit normal the face rotation matrix is orthonormal, maps the normal to the local axis, and rotating to the local frame and back returns the original field.", "quantifier": "every unit normal and field vector", "why_tests_cant": "Continuum of normals, including the switch of reference axis.", "anchors": ["src/solver/SolverExtension.h: buildFaceRotationMatrix"]}
{"id": "C25", "title": "Evaluating the right-hand side has no side effect on thin-layer states", "statement": "Between two committed time steps the right-hand side may be evaluated any number of times, at any stage times, and the thin-layer contribution of each evaluation depends only on its own arguments and on the committed state.", "quantifier": "every sequence of evaluations within a step", "why_tests_cant": "ODE solvers call the right-hand side in arbitrary patterns.", "anchors": ["src/evolution/GlobalEvolution.cpp: commitSGBCCheckpoint, finalizeSGBCStep, Mult"]}
{"id": "C26", "title": "Thread scheduling does not change thin-layer results", "statement": "Advancing the thin-layer states in parallel gives the same states for every assignment of tasks to threads and every completion order.", "quantifier": "every schedule and number of threads", "why_tests_cant": "Schedules cannot be enumerated by running.", "anchors": ["src/evolution/GlobalEvolution.cpp: Mult, finalizeSGBCStep", "src/solver/SolverExtension.cpp: SGBCWrapper"]}
{"id": "C27", "title": "Thin-layer sub-steps add up to the global step", "statement": "The sub-steps of a thin layer are no longer than the recommended one, are equal, cover the global step exactly, and end with the interface field of the new time.", "quantifier": "every positive step and recommended sub-step", "why_tests_cant": "Ceiling of a real ratio.", "anchors": ["src/evolution/GlobalEvolution.cpp: finalizeSGBCStep"]}
{"id": "C28", "title": "Ghost values interpolate between old and new interface fields", "statement": "The ghost value at fraction zero is the old field, at fraction one the new field, in between it stays between them, and only ghost nodes are touched.", "quantifier": "all fields and fractions in [0,1]", "why_tests_cant": "Continuum of fractions and node layouts.", "anchors": ["src/solver/SolverExtension.cpp: updateFieldsWithInterpolatedGhost, updateFieldsWithGlobal"]}
{"id": "C29", "title": "Thin-layer states are isolated from each other", "statement": "Loading a state, advancing and saving it only changes that state; saving and loading again returns the same fields.", "quantifier": "every sequence of operations on any number of states sharing a wrapper", "why_tests_cant": "All interleavings of shared wrappers.", "anchors": ["src/solver/SolverExtension.cpp: loadState, saveState"]}
{"id": "C30", "title": "The right-hand side does not depend on previous evaluations", "statement": "The scratch storage used for source and thin-layer contributions is zero after each evaluation, so results do not depend on how many evaluations took place before.", "quantifier": "every history of evaluations", "why_tests_cant": "History property.", "anchors": ["src/evolution/GlobalEvolution.cpp: applyTFSFSourceToVector, Mult, ImplicitSolve"]}
{"id": "C31", "title": "The cached implicit factorisation is never stale", "statement": "Each implicit solve returns the solution for its own time step, whatever time steps were used before.", "quantifier": "every history of implicit solves with positive steps", "why_tests_cant": "History property over arbitrary step sequences.", "anchors": ["src/evolution/GlobalEvolution.cpp: ImplicitSolve"]}
{"id": "C32", "title": "Total-field sources superpose", "statement": "The excitation with several total-field sources is the sum of the excitations with each source alone, whichever evaluation path is used.", "quantifier": "every list of sources, time and mesh", "why_tests_cant": "All numbers of sources.", "anchors": ["src/solver/SourcesManager.cpp: evalTimeVarField, evalTimeVarFieldDirect", "src/evolution/MaxwellEvolutionMethods.cpp: evalTimeVarFunction"]}
{"id": "C33", "title": "Initial fields superpose and only touch their own component type", "statement": "Initial fields of several sources add up, in any order, and a source for E leaves H untouched and conversely.", "quantifier": "every list of sources", "why_tests_cant": "All numbers and orders.", "anchors": ["src/solver/SourcesManager.cpp: setInitialFields", "src/components/Sources.cpp: InitialField::eval"]}
{"id": "C34", "title": "Plane waves are transverse travelling waves", "statement": "For orthogonal polarisation and propagation the electric and magnetic fields are perpendicular to the propagation and to each other with equal magnitude, Poynting vector along the propagation, and the value depends only on the retarded time.", "quantifier": "all directions, positions and times", "why_tests_cant": "Continuum.", "anchors": ["src/math/Function.h: Planewave"]}
{"id": "C35", "title": "Transferring into a sub-mesh and back is reversible", "statement": "Adding and then subtracting the same transferred field leaves the parent field unchanged, and only mapped degrees of freedom change.", "quantifier": "every mapping and field", "why_tests_cant": "All maps.", "anchors": ["src/components/SubMesher.cpp: MaxwellTransferMap::TransferAdd, TransferSub"]}
{"id": "C36", "title": "Total/scattered regions are assigned consistently", "statement": "Every element touching a total-field face is placed in exactly one of the total or the scattered region according to the face orientation rule.", "quantifier": "every set of marked faces", "why_tests_cant": "All face sets and orientations.", "anchors": ["src/components/SubMesher.cpp: setGlobalTFSFAttributesForSubMeshing, twoPointAssignator"]}
{"id": "C37", "title": "Spherical and Cartesian coordinates agree", "statement": "Converting a non-zero point to spherical coordinates and back is the identity.", "quantifier": "all points", "why_tests_cant": "Continuum with branch cuts.", "anchors": ["src/components/Spherical.cpp"]}
{"id": "C38", "title": "Element orientation comparison is an equivalence", "statement": "Orientation equality of elements with distinct vertices is an equivalence relation; it holds exactly for segments with the same vertices in the same order and triangles with the same vertices up to rotation, and other elements are rejected.", "quantifier": "all segments and triangles with distinct vertices", "why_tests_cant": "All lists.", "anchors": ["src/math/Geometry.cpp: elementsHaveSameOrientation"]}
{"id": "C39", "title": "Shared reference matrices are deduplicated soundly", "statement": "The ordering used to store directional matrices is a strict weak order, so a stored matrix is found again exactly by value.", "quantifier": "all matrices", "why_tests_cant": "All triples of matrices.", "anchors": ["src/evolution/HesthavenEvolutionMethods.h: MatrixCompareLessThan", "src/evolution/HesthavenEvolution.cpp: storeDirectionalMatrices"]}
{"id": "C40", "title": "Removing zero columns keeps exactly the others", "statement": "Removing zero columns from a matrix keeps all the columns with some entry above tolerance, in order.", "quantifier": "all matrices", "why_tests_cant": "All sizes and zero patterns.", "anchors": ["src/evolution/HesthavenEvolutionMethods.cpp: removeZeroColumns, removeColumn"]}
{"id": "C41", "title": "The nodal flux is tangential and dissipative", "statement": "The flux of the hesthaven operator has no component along the face normal, and the two sides of an inner face together never gain energy for alpha >= 0.", "quantifier": "all unit normals, jumps and alpha", "why_tests_cant": "Continuum.", "anchors": ["src/evolution/HesthavenEvolution.cpp: HesthavenEvolution::Mult"]}
{"id": "C42", "title": "Boundary conditions of the nodal operator mirror the right field", "statement": "For PEC nodes the electric jump is minus twice the trace and the magnetic jump zero, for PMC the converse, for SMA both jumps are minus the trace divided by alpha, inner conditions use one half of it on each side, a node under several outer conditions follows SMA, then PMC, then PEC, and other nodes are not modified.", "quantifier": "every node map and field", "why_tests_cant": "All node lists, overlapping included.", "anchors": ["src/evolution/HesthavenEvolution.cpp: applyBoundaryConditionsToNodes"]}
{"id": "C43", "title": "One-dimensional connectivity pairs neighbouring nodes", "statement": "The one-dimensional connectivity pairs the last node of each element with the first node of the next one.", "quantifier": "every number of elements and order", "why_tests_cant": "All sizes.", "anchors": ["src/evolution/HesthavenEvolutionMethods.cpp: assembleGlobalConnectivityMap1D"]}
{"id": "C44", "title": "Boundary node maps point at boundary nodes", "statement": "The boundary map holds exactly the positions where exterior and interior node indices coincide, in order, and a face lookup returns positions whose nodes are those of the face or raises an error.", "quantifier": "every connectivity", "why_tests_cant": "All connectivities.", "anchors": ["src/evolution/HesthavenEvolutionMethods.cpp: initMapB, initVMapB, findMapBIDForFaceNodes"]}
{"id": "C45", "title": "Pole fitting returns the best stable model it saw", "statement": "Among the orders tried the returned pole-residue model is stable and has the smallest error, and the search stops at the first model below tolerance.", "quantifier": "every sequence of candidate fits", "why_tests_cant": "All error sequences.", "anchors": ["src/components/SIBCPoleResidueFitting.cpp: findOptimalPoles, checkQuality"]}
{"id": "C46", "title": "Surface data files round-trip", "statement": "Reading a surface data file returns exactly the header, geometry and snapshots that were written.", "quantifier": "every geometry and list of snapshots", "why_tests_cant": "Unbounded data.", "anchors": ["src/components/RCSSurfaceExporter.cpp", "src/components/RCSSurfacePostProcessor.cpp: readRankData"]}
{"id": "C47", "title": "A crash while exporting loses at most the last snapshot", "statement": "Reading a file cut at an arbitrary byte after the geometry returns a prefix of the written snapshots.", "quantifier": "every crash point", "why_tests_cant": "All truncation points.", "anchors": ["src/components/RCSSurfacePostProcessor.cpp: readRankData"]}
{"id": "C48", "title": "The far field does not depend on how the surface was split among ranks", "statement": "Distributing the surface integration points among ranks in any way and order gives the same radiation vectors and cross section.", "quantifier": "every distribution and rank order", "why_tests_cant": "All partitions.", "anchors": ["src/components/RCSSurfacePostProcessor.cpp"]}
{"id": "C49", "title": "max_time keeps exactly the early snapshots", "statement": "Applying the optional maximum time keeps exactly the snapshots not later than it, in order, and raises an error if none remains.", "quantifier": "every snapshot list and limit", "why_tests_cant": "All lists.", "anchors": ["src/components/RCSSurfacePostProcessor.cpp"]}
{"id": "C50", "title": "The far-field phase kernel is the plane-wave phase", "statement": "The phase computed through the angle between source point and observation direction equals wavenumber times the projection of the point on the direction.", "quantifier": "all points and directions", "why_tests_cant": "Continuum, including the origin.", "anchors": ["src/components/FarField.cpp: func_exp_real_part_3D, func_exp_imag_part_3D, calcPsiAngle3D"]}
{"id": "C51", "title": "Far-field frames are orthonormal and cross sections non-negative", "statement": "The spherical unit vectors used for projecting are orthonormal and right-handed, and every cross section computed is non-negative.", "quantifier": "all angles and data", "why_tests_cant": "Continuum.", "anchors": ["src/components/RCSSurfacePostProcessor.cpp: thetaHat, phiHat, rHat"]}
{"id": "C52", "title": "Fourier transforms are linear and independent of threads", "statement": "The frequency-domain field is linear in the time-domain data and does not depend on how frequencies are distributed over threads.", "quantifier": "all signals and schedules", "why_tests_cant": "All schedules.", "anchors": ["src/components/RCSSurfacePostProcessor.cpp", "src/components/FarField.cpp: calculateDFT"]}
{"id": "C53", "title": "Case folders are accepted exactly when consistently named", "statement": "A case is accepted exactly when it is a .json file in a folder with the same stem, naming a .msh with the same stem without directory part, which exists next to it.", "quantifier": "every path and content", "why_tests_cant": "All paths.", "anchors": ["src/driver/driver.cpp: validateCaseNamingStyle"]}
{"id": "C54", "title": "Post-processing without a plane wave is refused", "statement": "Asking for the plane-wave data of a case without a plane-wave source raises an error.", "quantifier": "every case description", "why_tests_cant": "All source lists.", "anchors": ["src/components/FarField.cpp: buildPlaneWaveData"]}
{"id": "C55", "title": "Merging rank results keeps the normalisation", "statement": "Merging the per-rank cross-section files gives the sum of the contributions with the common normalisation of the incident wave.", "quantifier": "every number of ranks", "why_tests_cant": "All numbers of ranks.", "anchors": ["src/components/RCSManager.cpp: addRows, writeParallelDataIntoSingleFiles"]}
{"id": "C56", "title": "Angle and frequency grids have exact ends and counts", "statement": "A linearly spaced grid has the requested number of points, starts at the first value, ends at the last one, and is evenly spaced; the angle list is the full product.", "quantifier": "all ends and counts", "why_tests_cant": "All counts.", "anchors": ["src/driver/rcs_driver.cpp: linspace, runRCSPostProcessing"]}
{"id": "C57", "title": "Command lines are interpreted deterministically", "statement": "The launcher uses the path after the input flag, rejects anything else with a distinct exit code.", "quantifier": "every argument list", "why_tests_cant": "Unbounded argument lists.", "anchors": ["src/launcher/launcher.cpp"]}
{"id": "C58", "title": "Automatic thin-layer resolution stays within limits", "statement": "The automatic number of segments of a layer is between 4 and 1000 and its order is 2, 3 or 4.", "quantifier": "all material parameters, widths and frequencies", "why_tests_cant": "Continuum.", "anchors": ["src/driver/driver.cpp: parseSGBCLayer"]}
{"id": "C59", "title": "Keywords of the input file are decoded one-to-one", "statement": "Each recognised keyword for boundary types and fields is decoded to its own meaning and any other keyword raises an error.", "quantifier": "every string", "why_tests_cant": "All strings.", "anchors": ["src/driver/driver.cpp: assignBdrCond, assignFieldType, assignBoundaryType"]}
{"id": "C60", "title": "Attributes are restored after sub-meshing", "statement": "After extracting a sub-mesh for a face all the elements of the parent mesh carry their original attributes.", "quantifier": "every mesh and face", "why_tests_cant": "Element numbers 0 and -1 are special.", "anchors": ["src/evolution/HesthavenEvolutionMethods.cpp: restoreOriginalAttributesAfterSubMeshing"]}
{"id": "C61", "title": "Face integrals use all quadrature points", "statement": "The element matrix of each face integrator is the sum of the contributions of all quadrature points.", "quantifier": "every quadrature rule and shape functions", "why_tests_cant": "Rules with more than one point.", "anchors": ["src/mfemExtension/BilinearIntegrators.cpp", "src/mfemExtension/LinearIntegrators.cpp"]}
{"id": "C62", "title": "Fields that agree across an interior face produce no flux", "statement": "If the traces on both sides of an interior face agree the face contributes nothing to the time derivative, so continuous fields see only the volume curl.", "quantifier": "every face, normal, quadrature rule and field", "why_tests_cant": "Continuum of fields.", "anchors": ["src/mfemExtension/BilinearIntegrators.cpp"]}
{"id": "C63", "title": "A field probe movie stores one frame per instant", "statement": "The movie of a field probe keeps, sorted by time, the first value recorded for each instant; once some value is finite the extreme-frame queries return the earliest recorded frame with the extreme value, and before that an infinite value at time zero.", "quantifier": "every recording history", "why_tests_cant": "History property.", "anchors": ["src/components/Probes.h: FieldProbe"]}
{"id": "C64", "title": "Implicit steps of the thin-layer solver always have a solution", "statement": "With non-negative upwinding and conductivity and positive material constants, the linear system of an implicit step is regular for every non-negative step size, so every implicit stage completes and returns the rate at the advanced state.", "quantifier": "every mesh, order, material set, boundary condition mix and history of positive step sizes", "why_tests_cant": "Regularity for every mesh and every step size is an infinite family.", "anchors": ["src/evolution/GlobalEvolution.cpp: ImplicitSolve", "src/solver/SolverExtension.cpp: buildSGBCSolverOptions, solve"]}
{"id": "C65", "title": "Thin layers that touch the same element do not disturb each other", "statement": "The flux a thin-layer face adds to the elements on its two sides is computed from the outer field and that layer's own surface values only, whatever other thin-layer faces share an element or a node with it.", "quantifier": "every arrangement of thin-layer faces, order of the faces, fields and layer states", "why_tests_cant": "Arrangements of faces are unbounded; tests use one flat sheet.", "anchors": ["src/evolution/GlobalEvolution.cpp: Mult (two-pass flux injection)"]}
{"id": "C66", "title": "A thin layer on an exterior boundary acts back on the fields", "statement": "When a thin layer covers an exterior face, the rate of change of the fields next to it depends on the state of the layer.", "quantifier": "every exterior thin-layer face, field and layer state", "why_tests_cant": "Needs all states; a test with a quiet layer sees nothing.", "anchors": ["src/evolution/GlobalEvolution.cpp: Mult, constructor"]}
{"id": "C67", "title": "The choice of time integrator does not drop thin layers", "statement": "With thin layers in the model, explicit and implicit time integrators see the same rate of change of the fields, including the layer contribution.", "quantifier": "every field, layer state and integrator type", "why_tests_cant": "Needs all fields and states.", "anchors": ["src/evolution/GlobalEvolution.cpp: Mult, ImplicitSolve", "src/solver/Solver.cpp: assignODESolver, step"]}
{"id": "C68", "title": "Repeating a direction or frequency in a request does not change its result", "statement": "The intensity and cross section written for a direction and frequency do not depend on how often that direction or frequency occurs in the request.", "quantifier": "every request and data set", "why_tests_cant": "All requests, including degenerate grids with equal ends.", "anchors": ["src/components/RCSSurfacePostProcessor.cpp: computeAndWriteResults", "src/driver/rcs_driver.cpp: linspace"]}
{"id": "C69", "title": "The two far-field implementations agree", "statement": "The per-rank implementation with file merging and the surface post-processor give the same intensity and cross section for the same recorded surface fields.", "quantifier": "all recorded data, dimensions and numbers of ranks and snapshots", "why_tests_cant": "Continuum of data and all splits.", "anchors": ["src/components/FarField.cpp: FarField", "src/components/RCSManager.cpp", "src/components/RCSSurfacePostProcessor.cpp"]}
{"id": "C70", "title": "Auxiliary points and lines are removed whatever the element shapes", "statement": "After the clean-up of a mesh file no point or line elements of lower dimension remain below the surface elements, for tetrahedral, hexahedral, triangular and quadrilateral meshes alike.", "quantifier": "every mesh file", "why_tests_cant": "All files; element shapes not covered by the examples.", "anchors": ["src/driver/driver.cpp: fixGmshMesh"]}
{"id": "C71", "title": "Every boundary face keeps the condition of its attribute", "statement": "A boundary face whose attribute is declared with a condition is treated with that condition, whether the face lies between two elements or on the outside, and whatever other faces carry the same attribute.", "quantifier": "every case and mesh", "why_tests_cant": "All meshes, including attributes shared by inner and outer faces.", "anchors": ["src/driver/driver.cpp: assembleAttributeToBoundary", "src/components/Model.cpp: assembleGeomTagToTypeMap"]}
{"id": "C72", "title": "Boundary tags that the mesh does not have are reported", "statement": "A case that declares a condition for an attribute no boundary element has is rejected.", "quantifier": "every case and mesh", "why_tests_cant": "All combinations of tags and attributes.", "anchors": ["src/driver/driver.cpp: checkBoundaryInputProperties", "src/components/Model.cpp: assembleGeomTagToTypeMap"]}
{"id": "C73", "title": "Every element has a material", "statement": "In an accepted case every element sees a permittivity and a permeability of at least one.", "quantifier": "every case and mesh", "why_tests_cant": "All combinations of tags and attributes.", "anchors": ["src/driver/driver.cpp: checkIfAttributesArePresent", "src/components/Model.cpp: buildEpsMuPiecewiseVector"]}
{"id": "C74", "title": "Thin layers are resolved for the fastest source", "statement": "The frequency used to choose the resolution of a thin layer is positive and at least the frequency of every pulse of the case.", "quantifier": "every list of sources", "why_tests_cant": "All combinations of pulses and carriers.", "anchors": ["src/driver/driver.cpp: calculateMaximumSourceFrequency"]}
{"id": "C75", "title": "An accepted case loads the mesh next to it", "statement": "When the launcher accepts a case file, the mesh it opens is the one with the base name of the case in the directory of the case.", "quantifier": "every path and file system", "why_tests_cant": "All strings.", "anchors": ["src/driver/driver.cpp: assembleLauncherMeshString", "src/driver/driver.cpp: validateCaseNamingStyle"]}
{"id": "C76", "title": "Every requested reduction snapshot is written", "statement": "A run that covers the window of a model-order-reduction probe writes as many snapshots as requested.", "quantifier": "every window, number of snapshots and sequence of instants", "why_tests_cant": "All step sizes relative to the window.", "anchors": ["src/solver/ProbesManager.cpp: updateProbe(MORStateProbe&, Time)"]}
{"id": "C77", "title": "Accepted options give a run that ends", "statement": "If the solver is constructed, the run reaches its end after finitely many steps.", "quantifier": "all options", "why_tests_cant": "Termination for all values.", "anchors": ["src/solver/Solver.cpp: checkOptionsAreValid", "src/solver/Solver.cpp: Solver::run"]}
{"id": "C78", "title": "The automatic time step exists for every accepted case", "statement": "For every accepted order, operator, mesh and number of ranks the automatic time step is computed without undefined behaviour.", "quantifier": "all orders, operators, meshes and partitions", "why_tests_cant": "All combinations of order, dimension, partition and curvature.", "anchors": ["src/solver/Solver.cpp: getJacobiGQ_RMin", "src/solver/Solver.cpp: estimateTimeStep", "src/evolution/HesthavenEvolution.h: getHesthavenElement"]}
{"id": "C79", "title": "The dipole source is a solution of Maxwell's equations", "statement": "Away from the origin the fields of the dipole source satisfy Maxwell's equations in vacuum.", "quantifier": "every length, spread, mean, position other than the origin and time", "why_tests_cant": "A statement about derivatives at every point and time.", "anchors": ["src/math/Function.h: DerivGaussDipole::eval", "src/components/Spherical.cpp"]}
{"id": "C80", "title": "Sources without a delay start from negligible fields", "statement": "When no mean is given, the delay chosen makes the incident field at time zero at most exp(-25) of its maximum on the whole total-field surface.", "quantifier": "every mesh, surface, direction and spread", "why_tests_cant": "All geometries.", "anchors": ["src/driver/driver.cpp: buildSources", "src/driver/driver.cpp: minPhaseOnTFSFSurface", "src/driver/driver.cpp: minRadiusOnTFSFSurface"]}
{"id": "C81", "title": "Every declared source is used or rejected", "statement": "A case is rejected, or all its sources are used, in order and with the declared values.", "quantifier": "every list of sources", "why_tests_cant": "All case files.", "anchors": ["src/driver/driver.cpp: buildSources"]}
{"id": "C82", "title": "Vectors of a case file are read as written or rejected", "statement": "A polarisation or propagation vector of a case is read exactly as written, or an error is raised.", "quantifier": "every vector", "why_tests_cant": "All lengths.", "anchors": ["src/driver/driver.cpp: assemble3DVector"]}
{"id": "C83", "title": "The inside of a total-field surface is the total-field region", "statement": "In three dimensions, the elements inside a convex total-field surface are placed in the total-field region and those outside in the scattered-field region; on a line, the elements between the two declared points are the total-field region and those outside the scattered-field region, whichever point is listed first.", "quantifier": "every mesh and convex surface, every line and pair of points", "why_tests_cant": "All geometries.", "anchors": ["src/components/SubMesher.cpp: setIndividualTFSFAttributesForSubMeshing3D", "src/components/SubMesher.cpp: twoPointAssignator"]}
{"id": "C84", "title": "The total-field side does not depend on the numbering of the elements", "statement": "Which side of a total-field face is the total-field one does not change when the elements of the mesh are numbered in another order.", "quantifier": "every mesh and face", "why_tests_cant": "All meshes and numberings.", "anchors": ["src/components/SubMesher.cpp: buildFaceOrientation", "src/components/SubMesher.cpp: setIndividualTFSFAttributesForSubMeshing2D"]}
{"id": "C85", "title": "The near-to-far-field surface is recorded from one side", "statement": "Every face of the near-to-far-field surface contributes exactly one element, all these elements are on the same side of the surface, and the face number recorded with an element is the number of that face in that element.", "quantifier": "every mesh and closed surface", "why_tests_cant": "All meshes and numberings.", "anchors": ["src/components/SubMesher.cpp: NearToFarFieldSubMesher"]}
{"id": "C86", "title": "Nodes of neighbouring elements are paired with their counterparts", "statement": "The nodal operator pairs every node of a shared face with exactly the node of the other element at the same place, and with no other.", "quantifier": "every pair of elements and face matrix with one entry per node", "why_tests_cant": "All elements and orders.", "anchors": ["src/evolution/HesthavenEvolutionMethods.cpp: mapConnectivity, buildConnectivityForInteriorBdrFace"]}
{"id": "C87", "title": "The nodal operator never creates energy", "statement": "On a conforming mesh whose outer faces are electric or magnetic conductors (or absorbing, with alpha at least one half), the energy of the fields never grows under the nodal operator, for every alpha >= 0.", "quantifier": "every mesh, field, and alpha", "why_tests_cant": "All fields and meshes: continuum.", "anchors": ["src/evolution/HesthavenEvolution.cpp: HesthavenEvolution::Mult, applyBoundaryConditionsToNodes, applyLIFT"]}
{"id": "C88", "title": "Absorbing boundaries of the nodal operator never create energy", "statement": "With every positive upwinding parameter an absorbing outer face never adds energy.", "quantifier": "every field, normal and alpha > 0", "why_tests_cant": "Continuum.", "anchors": ["src/evolution/HesthavenEvolution.cpp: applyBoundaryConditionsToNodes"]}
{"id": "C89", "title": "Conditions inside the mesh never create energy in the nodal operator", "statement": "A conductor or absorbing condition on a face between two elements never adds energy under the nodal operator.", "quantifier": "every field, normal and alpha >= 0", "why_tests_cant": "Continuum.", "anchors": ["src/evolution/HesthavenEvolution.cpp: applyBoundaryConditionsToNodes"]}
{"id": "C90", "title": "The incident field crosses the total-field surface of the nodal operator without reflection", "statement": "All the sources enter with minus sign on the scattered side and plus sign on the total side, nowhere else; if the fields on both sides differ by exactly the incident field the jumps vanish.", "quantifier": "every surface, number of sources and field", "why_tests_cant": "All surfaces and sources.", "anchors": ["src/evolution/HesthavenEvolution.cpp: evaluateTFSF"]}
{"id": "C91", "title": "Nodal and global operators put the total field on the same side", "statement": "For the same mesh and surface, both operators place the total-field region on the same side of each face.", "quantifier": "every mesh and face", "why_tests_cant": "All meshes and vertex orders.", "anchors": ["src/evolution/HesthavenEvolutionMethods.cpp: initIntFaceConnectivityMaps, loadIntBdrConditions", "src/components/SubMesher.cpp: calculateCrossBaryVertexSign, buildFaceOrientation, setIndividualTFSFAttributesForSubMeshing3D"]}
{"id": "C92", "title": "Poles are the zeros of the fitted denominator", "statement": "An equation of the fitting system holds exactly when numerator over denominator matches the impedance at its frequency, and the matrix whose eigenvalues are returned as poles has exactly the zeros of the denominator, in unscaled frequency, as eigenvalues.", "quantifier": "every order, coefficients, scale and field of numbers", "why_tests_cant": "All orders and coefficients.", "anchors": ["src/components/SIBCPoleResidueFitting.cpp: build_system, solveForPoles, extractRoots"]}
{"id": "C93", "title": "The impedance that is fitted is that of all the layers", "statement": "The target of the fit depends on the materials of all the layers of the sheet.", "quantifier": "every list of layers", "why_tests_cant": "All stacks.", "anchors": ["src/components/SIBCPoleResidueFitting.cpp: generatePhysicsTarget"]}
{"id": "C94", "title": "The fit samples the whole band", "statement": "The sampled frequencies start at the first and end at the last frequency of the band, in increasing geometric progression.", "quantifier": "every band and number of points (at least two)", "why_tests_cant": "Continuum.", "anchors": ["src/components/SIBCPoleResidueFitting.cpp: findOptimalPoles"]}
{"id": "C95", "title": "Cross sections are normalised by the wave that was launched", "statement": "For a case with a plane wave, the pulse whose spectrum normalises the radar cross section is, at every time, the electric field amplitude at the origin of the wave that the solver launches from the same case file, including automatic delay and carrier.", "quantifier": "all plane-wave entries (with explicit or automatic delay, with or without carrier), all other sources around them, all times", "why_tests_cant": "Tests compare one cross section with a tolerance; agreement of two programs must hold for every entry and instant.", "anchors": ["src/components/FarField.cpp:buildPlaneWaveData", "src/components/FarField.cpp:evaluateGaussianVector", "src/components/RCSSurfacePostProcessor.cpp:computeIncidentPowerSpectrum", "src/driver/driver.cpp:buildSources"]}
{"id": "C96", "title": "Snapshots for reduction can be read back exactly", "statement": "Whatever instant and degrees of freedom a reduction snapshot stores, a reader that converts decimal text with correct rounding recovers exactly the same doubles, in the same order and number.", "quantifier": "all finite doubles, all numbers of degrees of freedom, all instants", "why_tests_cant": "A test reads back a few numbers; the decimal round trip must hold for each of the 2^64 doubles.", "anchors": ["src/solver/ProbesManager.cpp:updateProbe(MORStateProbe&, Time)"]}
{"id": "C97", "title": "Reduction snapshots hold the whole state on any number of ranks", "statement": "After a run on any number of ranks, each reduction snapshot gives access to the degrees of freedom of every rank.", "quantifier": "all numbers of ranks, all states, all orders in which ranks write", "why_tests_cant": "Tests run on one or two ranks; the loss depends on the rank count and write order.", "anchors": ["src/solver/ProbesManager.cpp:updateProbe(MORStateProbe&, Time)"]}
{"id": "C98", "title": "Recorded time stamps distinguish recorded instants", "statement": "Two different recorded instants have different time stamps in the files of probes and in the visualisation frames, in the same order.", "quantifier": "all pairs of recorded instants, all time steps", "why_tests_cant": "Tests use a time step for which the stamps happen to differ.", "anchors": ["src/solver/ProbesManager.cpp:updateProbe(ExporterProbe&, Time)", "src/solver/ProbesManager.cpp:updateProbe(PointProbe&, Time)"]}
{"id": "C99", "title": "Different directions have different result files", "statement": "Post-processing several directions leaves, for each of them, a file with its own results.", "quantifier": "all lists of directions", "why_tests_cant": "A test lists a few round angles; names collide only for particular real numbers.", "anchors": ["src/components/RCSSurfacePostProcessor.cpp:computeAndWriteResults"]}
{"id": "C100", "title": "Each probe file holds exactly the records of this run", "statement": "After a run on any number of ranks, the file of a point or field probe consists of its header and one line per recorded instant, in order, with the values of that instant, whatever earlier runs left, whatever other probes exist, and however the ranks interleave.", "quantifier": "all earlier file systems, numbers of ranks, probe lists, histories of instants and interleavings of rank operations between barriers", "why_tests_cant": "A race or leftover shows only for particular schedules and earlier directories.", "anchors": ["src/solver/ProbesManager.cpp:initPointFieldProbeExport", "src/solver/ProbesManager.cpp:updateProbe(FieldProbe&, Time)", "src/solver/ProbesManager.cpp:updateProbe(PointProbe&, Time)", "src/driver/driver.cpp:buildProbes"]}
{"id": "C101", "title": "Output directories hold only the output of the last run", "statement": "After a run, the directories of its probes contain no file of an earlier run, so that post-processing uses only this run's records.", "quantifier": "all earlier file systems and runs", "why_tests_cant": "Tests start from clean directories or repeat the same case.", "anchors": ["src/solver/ProbesManager.cpp:initPointFieldProbeExport", "src/solver/ProbesManager.cpp:updateProbe(NearFieldProbe&, Time)", "src/solver/ProbesManager.cpp:updateProbe(DomainSnapshotProbe&, Time)", "src/solver/ProbesManager.cpp:updateProbe(MORStateProbe&, Time)"]}
{"id": "C102", "title": "A probe outside the mesh is rejected", "statement": "A case with a probe whose point lies in no element is refused with a message; every case whose probes are inside runs.", "quantifier": "all probe positions, ranks and histories", "why_tests_cant": "Outside points are infinitely many and the failure is silent memory access.", "anchors": ["src/solver/ProbesManager.cpp:buildPointProbeCollectionInfo", "src/solver/ProbesManager.cpp:updateProbe(PointProbe&, Time)"]}
{"id": "C103", "title": "The declared cadence of a probe is the one used", "statement": "A probe with `steps` is recorded at that interval, a probe with `saves` at the interval that gives the requested number, in every case file the solver accepts; contradictory or senseless values are rejected.", "quantifier": "all combinations of members, time steps and final times", "why_tests_cant": "Combinations of absent and present members multiply; tests cover the ones in the example cases.", "anchors": ["src/driver/driver.cpp:buildProbes", "src/solver/ProbesManager.cpp:recalculateExportSteps"]}
{"id": "C104", "title": "Surfaces recorded for the far field are exactly the declared tags", "statement": "The surface of a near-field or surface probe consists of the boundary elements with the declared tags; tags the mesh lacks are reported.", "quantifier": "all tag lists and meshes", "why_tests_cant": "Out-of-range tags corrupt memory silently.", "anchors": ["src/solver/ProbesManager.cpp:buildSurfaceMarker"]}
{"id": "C105", "title": "The device does not change the results", "statement": "For every state, the time derivative computed with `--device cuda` equals the one computed with `--device cpu`, whatever the order in which the device executes its threads, including the contribution of plane waves and thin layers.", "quantifier": "all states, all thread schedules, all cases (sources, thin layers, neighbour data)", "why_tests_cant": "Thread schedules cannot be enumerated, and stale copies between host and device memory show only for particular sequences of calls.", "anchors": ["src/evolution/GlobalEvolution.cu", "src/evolution/GlobalEvolution.cpp:Mult", "src/solver/SourcesManager.cpp:evalTimeVarFieldDirect"]}
{"id": "C106", "title": "The incident wave crosses the total-field surface of the global operator without a trace", "statement": "With plane waves injected on a total-field surface, the stored state 'total field inside, total minus incident outside' evolves exactly as the discrete total field without any surface: in particular the discrete incident wave alone produces no scattered field outside, on any mesh, order, dimension and flux parameter.", "quantifier": "all meshes whose total-field surface separates two regions, all states and all (sums of) plane waves, both one- and two-sided source sub-meshes", "why_tests_cant": "Leakage depends on mesh, order, orientation of every face of the surface and on the amplitude of the wave.", "anchors": ["src/components/DGOperatorFactory.h:buildGlobalSourceOperator", "src/evolution/GlobalEvolution.cpp:Mult", "src/solver/SourcesManager.cpp"]}
{"id": "C107", "title": "A transparent thin layer is invisible", "statement": "If every thin layer shows on each of its surfaces the field found on its other side, the computed time derivative is the one of the same mesh without thin layers.", "quantifier": "all meshes with thin layers in the interior, all states, dimensions, orders, flux parameters and orientations of the faces", "why_tests_cant": "It is an identity between two assembled operators for every mesh and state.", "anchors": ["src/evolution/GlobalEvolution.cpp:Mult", "src/evolution/GlobalEvolution.cpp:fillBCSlot", "src/components/DGOperatorFactory.h"]}
{"id": "C108", "title": "Surfaces of thin layers obey their declared condition", "statement": "A thin layer with a perfect electric, perfect magnetic or absorbing condition on a surface acts on that side exactly like an interior wall of that kind, whatever is inside it.", "quantifier": "all meshes with thin layers in the interior, all states, dimensions, orders, flux parameters", "why_tests_cant": "Equality of the two operators must hold for every state and mesh; a single comparison does not see missing fluxes that vanish for its field.", "anchors": ["src/evolution/GlobalEvolution.cpp:fillBCSlot", "src/evolution/GlobalEvolution.cpp:Mult", "src/components/DGOperatorFactory.h"]}
{"id": "C109", "title": "Every node of a thin layer has exactly one state of its own definition", "statement": "For every boundary face whose tag belongs to a thin-layer definition and every pair of facing nodes on it, exactly one one-dimensional state is created, of the size of that definition's solver, in the order of the mesh; every state is advanced once per step, and loading and saving copy whole states.", "quantifier": "all meshes, lists of definitions and tags", "why_tests_cant": "Depends on which tags occur in which definitions and faces, for every mesh.", "anchors": ["src/evolution/GlobalEvolution.cpp:GlobalEvolution", "src/solver/SolverExtension.cpp"]}
{"id": "C110", "title": "The layers of one sheet are stacked in the same direction on all its faces", "statement": "For a thin sheet between two regions, the first layer of the definition is next to the same region on every face of the sheet, and the local frame's normal looks from the first to the second side.", "quantifier": "all meshes, numberings of elements and orientations of faces", "why_tests_cant": "The direction depends on the numbering of the elements the mesh generator happened to write.", "anchors": ["src/evolution/GlobalEvolution.cpp:GlobalEvolution", "src/components/SubMesher.cpp:buildFaceOrientation"]}
{"id": "C111", "title": "Thin-layer fluxes go exactly to the elements next to the layers", "statement": "The lists of nodes that receive thin-layer fluxes contain, in increasing order and once, exactly the nodes of the elements which own a node of some layer on that side.", "quantifier": "all meshes, definitions and element tables", "why_tests_cant": "For every mesh and every set of layers, including elements touched by several layers.", "anchors": ["src/evolution/GlobalEvolution.cpp:GlobalEvolution"]}
{"id": "C112", "title": "Thin layers on lines and on the outer boundary join the right nodes", "statement": "On one-dimensional meshes an interior layer joins the two nodes that face each other; layers on the outer boundary take the boundary node of their element, in every dimension.", "quantifier": "all meshes, numberings and orders", "why_tests_cant": "Only meshes numbered from left to right are used in tests.", "anchors": ["src/evolution/GlobalEvolution.cpp:GlobalEvolution", "src/evolution/HesthavenEvolutionMethods.cpp:buildConnectivityForInteriorBdrFace"]}
{"id": "C113", "title": "The choice of operator does not change how waves are launched", "statement": "With plane waves, the component-wise and the global evolution operator compute the same right-hand side, so that inside the total-field surface the fields evolve as the total field and outside as the total minus the incident field, with either of them.", "quantifier": "all meshes, sets of total-field faces, materials, waves and fields", "why_tests_cant": "Both operators would have to be run on every mesh, medium and combination of waves; tests use one wave in vacuum.", "anchors": ["src/evolution/MaxwellEvolution.cpp:Mult", "src/evolution/MaxwellEvolution.cpp:MaxwellEvolution", "src/evolution/MaxwellEvolutionMethods.cpp:evalTimeVarFunction", "src/evolution/GlobalEvolution.cpp:applyTFSFSourceToVector"]}
{"id": "C114", "title": "The spectral matrix is the operator that is evolved", "statement": "The system matrix assembled for the spectral analysis, applied to any field, gives the rate of change that the evolution operator of the same mesh gives.", "quantifier": "all meshes, orders, flux blendings, boundary conditions and fields", "why_tests_cant": "The matrix has to agree on every field and for every value of the blending factor; tests only print it.", "anchors": ["src/solver/Solver.cpp:assembleSubmeshedSpectralOperatorMatrix", "src/evolution/MaxwellEvolutionMethods.cpp:allocateDenseInEigen"]}
{"id": "C115", "title": "The eigenvalue estimator describes the operator that is evolved", "statement": "The element matrix returned by the eigenvalue estimator, applied to any field, gives the rate of change of the evolution operator, so that it has no growing modes when the operator has none.", "quantifier": "all meshes, boundary conditions, flux blendings and fields", "why_tests_cant": "Tests check that no exception is raised and print the matrix.", "anchors": ["src/components/EigenvalueEstimator.cpp:EigenvalueEstimator", "src/components/OptimizationManager.cpp:calculateTimeStepForElements"]}
{"id": "C116", "title": "The reported largest modulus is the largest", "statement": "For every list of eigenvalues the largest modulus that is reported is attained by one of them and exceeded by none.", "quantifier": "all lists of complex numbers", "why_tests_cant": "Any list of eigenvalues may occur.", "anchors": ["src/solver/Solver.cpp:findMaxEigenvalueModulus", "src/components/OptimizationManager.cpp:calcHighestModulus"]}
{"id": "C117", "title": "The option spectral yields a usable time step", "statement": "With the option spectral set, a case that is accepted without it gets a time step, stable cases are accepted and unstable ones rejected.", "quantifier": "all cases, meshes and options", "why_tests_cant": "The order of construction matters for every case; no test sets the option.", "anchors": ["src/solver/Solver.cpp:Solver", "src/solver/Solver.cpp:performSpectralAnalysis", "src/solver/Solver.cpp:evaluateStabilityByEigenvalueEvolutionFunction"]}
{"id": "C118", "title": "Implicit integrators are unconditionally stable", "statement": "With the global operator and any of the six implicit integrators, a run completes for every sequence of non-negative steps however large and every sources, and two runs with the same sources never drift apart in energy; without sources the energy never grows, and the two rules documented as energy-conserving keep it exactly when nothing is lost.", "quantifier": "all meshes, orders, materials, boundary conditions, sources, initial fields and sequences of steps", "why_tests_cant": "Stability for all step sizes and any number of steps; tests run a few steps of one size.", "anchors": ["src/solver/Solver.cpp:assignODESolver", "src/solver/SolverOptions.h:ode_type", "src/solver/Solver.cpp:step", "src/evolution/GlobalEvolution.cpp:ImplicitSolve"]}
{"id": "C119", "title": "The explicit integrator has a safe step", "statement": "For every problem there is a positive step such that with any smaller one a run of any length, its last step shortened to hit the final time, keeps the distance of two runs below twice the initial one; with a lossless operator the energy never grows up to the classical limit.", "quantifier": "all meshes, orders, materials, sources, initial fields and numbers of steps", "why_tests_cant": "Boundedness over an unbounded number of steps; a growing mode may need many steps to show.", "anchors": ["src/solver/Solver.cpp:assignODESolver", "src/solver/Solver.cpp:step"]}
{"id": "C120", "title": "The automatic step is stable", "statement": "When no time step is given, the automatic one keeps the fields of a source-free problem bounded with the default integrator.", "quantifier": "all meshes, materials and options", "why_tests_cant": "Needs a bound on the spectrum for every mesh and every material; tests use vacuum.", "anchors": ["src/solver/Solver.cpp:estimateTimeStep", "src/solver/Solver.cpp:assignODESolver"]}
{"id": "C121", "title": "Every accepted integrator runs with every accepted operator", "statement": "A combination of operator and integrator that is accepted when the solver is built completes its steps.", "quantifier": "all seven integrators, three operators, step sizes and fields", "why_tests_cant": "Twenty-one combinations; only a few are exercised, and the failure comes at the first step and not at the construction.", "anchors": ["src/solver/Solver.cpp:assignODESolver", "src/solver/Solver.cpp:assignEvolutionOperator", "src/evolution/MaxwellEvolution.h:MaxwellEvolution", "src/evolution/HesthavenEvolution.h:HesthavenEvolution"]}
{"id": "C122", "title": "The integrators converge with their order", "statement": "For any smooth sources the semi-discrete equations have exactly one solution through given fields, and the fields at the end of a run differ from it by at most a constant times the largest step to the documented order; the constant depends on the solution and the final time only (without sources: on the initial fields only), neither on the number and sizes of the steps nor on the number of ranks. With plane waves the waves that are skipped add at most a constant times 1e-8 times the elapsed time.", "quantifier": "all meshes, integrators, smooth sources, sequences of steps (equal steps and a shorter last one for the explicit integrator), initial fields and final times; for plane waves all splittings among ranks", "why_tests_cant": "A bound for all step sizes with a constant independent of stiffness; tests compare one resolution with a tolerance.", "anchors": ["src/solver/SolverOptions.h:ode_type", "src/solver/Solver.cpp:assignODESolver", "src/solver/Solver.cpp:step"]}
{"id": "C123", "title": "Stiff losses are damped at once", "statement": "A field that decays at a rate much faster than the step is reduced by one step of backward Euler, SDIRK33 or SDIRK23 to a fraction inversely proportional to rate times step.", "quantifier": "all problems, decay rates, step sizes and decaying fields", "why_tests_cant": "Holds in the limit of infinitely strong losses; a test takes one conductivity.", "anchors": ["src/solver/SolverOptions.h:ode_type", "src/solver/Solver.cpp:assignODESolver"]}
{"id": "C124", "title": "Splitting the mesh among ranks does not change the equations", "statement": "With any number of ranks and any assignment of elements to ranks that keeps both sides of conditioned interior faces together, the exchange followed by the product on every rank gives it exactly its part of the rates of change that a single rank would compute, for the global and the component-wise operator and for the stored sparse matrix with its work vector.", "quantifier": "all meshes, orders, materials, boundary conditions, numbers of ranks, assignments, numberings of the degrees of freedom on the ranks, orders of the faces and fields", "why_tests_cant": "Assignments and numberings are unbounded in number; tests compare a few partitions of one mesh at a few points.", "anchors": ["src/evolution/GlobalEvolution.cpp:Mult", "src/evolution/MaxwellEvolution.cpp:Mult", "src/components/DGOperatorFactory.h:FieldOffsets", "src/components/DGOperatorFactory.h:buildGlobalOperator"]}
{"id": "C125", "title": "A run on several ranks is the run on one", "statement": "With the explicit integrator the fields every rank holds after any number of steps are its part of the fields of the run on one rank, at the same times.", "quantifier": "all splits as in C124, initial fields, contributions of sources handed out to the ranks, sequences of steps", "why_tests_cant": "Equality after every number of steps and for every split.", "anchors": ["src/evolution/GlobalEvolution.cpp:Mult", "src/evolution/MaxwellEvolution.cpp:Mult", "src/solver/Solver.cpp:step"]}
{"id": "C126", "title": "All ranks leave an implicit step together", "statement": "In an implicit step on several ranks, ranks that exchange values with each other make the same number of exchanges.", "quantifier": "all splits, fields and step sizes", "why_tests_cant": "Depends on the fields of every rank; a mismatch shows as a hang or as wrong values only for some fields and partitions.", "anchors": ["src/evolution/GlobalEvolution.cpp:ImplicitSolve"]}
{"id": "C127", "title": "The number of ranks does not change how waves are launched", "statement": "On any number of ranks the plane waves enter the equations exactly as on one rank. Proved: this holds whenever on every rank the incident values vanish or one of them is at least 1e-8; in general the ranks together launch the waves of the whole case except for some values, each smaller than 1e-8. Violated: every rank compares the norm of its own values with the threshold, so a weak wave launched on one rank is not launched on two.", "quantifier": "all cases with a total-field region, splits that do not cut its faces, waves and fields", "why_tests_cant": "The threshold acts rank by rank and sample by sample; tests use strong waves.", "anchors": ["src/evolution/GlobalEvolution.cpp:Mult", "src/evolution/GlobalEvolution.cpp:evaluateTFSF"]}
{"id": "C128", "title": "Neglected waves change a run only negligibly", "statement": "A run of the explicit integrator in which weak incident values are skipped, on one rank or on several, and a run of an implicit integrator on one rank, ends with fields whose difference from those of the run with nothing skipped has an energy norm of at most a constant of the case times the elapsed time times 1e-8.", "quantifier": "all well-posed cases, splits, waves as functions of time, numbers of steps and steps within the bound of C119", "why_tests_cant": "The skipping test is repeated at every stage of every step; the accumulated effect depends on the whole history.", "anchors": ["src/evolution/GlobalEvolution.cpp:Mult", "src/solver/Solver.cpp:step"]}
{"id": "C129", "title": "The nodal and the global operator solve the same equations", "statement": "Choosing the nodal operator instead of the global one does not change the solution: both give the same time derivative of the fields and therefore the same explicit runs. Proved: on meshes of linear triangles or tetrahedra in vacuum without conductivity, without walls inside the domain, and with absorbing boundaries only if the flux is fully upwinded, the two are equal, also with plane waves as long as these are not neglected; in general the nodal operator is the global one multiplied by a factor per element. Violated: the nodal operator ignores permittivity, permeability and conductivity, uses another absorbing condition for other upwinding parameters, applies half of the flux at walls inside the domain, and is four times too fast on quadrilaterals.", "quantifier": "all meshes of linear elements of one type, orders, materials, boundary conditions, plane waves, fields, numbers and sizes of steps", "why_tests_cant": "Requires comparing two independent assemblies on every mesh, material and boundary condition; tests compare a few runs in vacuum.", "anchors": ["src/evolution/HesthavenEvolution.cpp:Mult", "src/evolution/HesthavenEvolution.cpp:storeDirectionalMatrices", "src/evolution/HesthavenEvolution.cpp:applyLIFT", "src/evolution/GlobalEvolution.cpp:Mult"]}
{"id": "C130", "title": "Every accepted mesh can be set up with the nodal operator", "statement": "For every mesh the model accepts and every order, the set-up of the nodal operator multiplies matrices of matching sizes. Proved for triangles, quadrilaterals and tetrahedra; one-dimensional meshes are rejected with an exception. Violated: for hexahedra the reference matrix is that of a tetrahedron at every order at least 1.", "quantifier": "all meshes, numbers of elements and orders", "why_tests_cant": "Sizes depend on the order and on the geometry; a mismatch is an assertion or undefined behaviour, not an exception.", "anchors": ["src/evolution/HesthavenEvolution.cpp:getRefMeshForGeomType", "src/evolution/HesthavenEvolution.cpp:storeDirectionalMatrices", "src/components/Model.cpp:ensureElementTypeIsSame"]}
{"id": "C131", "title": "Results do not depend on how the problem is described", "statement": "Turning or mirroring the coordinate axes, renumbering unknowns, faces or quadrature points, or exchanging the two elements of a face changes nothing but the description: the fields of every run, with every integrator, are those of the original run in the new description, with the same energy. A problem that looks the same in the new description keeps the symmetry of its initial fields and sources.", "quantifier": "all meshes, materials, boundary conditions, rotations and reflections, numberings, sources, integrators, lists of steps", "why_tests_cant": "Ranges over all orthogonal frames and all permutations of a mesh; tests use one mesh in one orientation.", "anchors": ["src/components/DGOperatorFactory.h:buildGlobalOperator", "src/mfemExtension/BilinearIntegrators.cpp:AssembleFaceMatrix", "src/evolution/GlobalEvolution.cpp:Mult"]}
{"id": "C132", "title": "Polarisations are independent on lines and in the plane", "statement": "On a one-dimensional mesh the pairs (Ey,Hz), (Ez,Hy) and the longitudinal components, and on a two-dimensional mesh the sets TE (Ex,Ey,Hz) and TM (Hx,Hy,Ez), never act on each other: the part of a run in one set is the run of that part of the initial fields and sources.", "quantifier": "all one- and two-dimensional meshes, materials, boundary conditions, sources, integrators, lists of steps", "why_tests_cant": "An unwanted coupling may be arbitrarily small or appear only on certain faces; tests look at single components of a few runs.", "anchors": ["src/components/DGOperatorFactory.h:buildGlobalOperator", "src/evolution/GlobalEvolution.cpp:Mult"]}
{"id": "C133", "title": "Signals travel a bounded number of elements per step", "statement": "The rate of the fields of an element depends only on that element and on the elements it shares a face with, unless the face is a wall; so with the explicit integrator a signal crosses at most four faces per step: what lies further away cannot affect the result.", "quantifier": "all meshes, materials, boundary conditions, sources, numbers and sizes of steps", "why_tests_cant": "Quantifies over every pair of fields that agree near an element.", "anchors": ["src/components/DGOperatorFactory.h:buildGlobalOperator", "src/evolution/GlobalEvolution.cpp:Mult", "src/driver/driver.cpp:assignODESolver"]}
{"id": "C134", "title": "Closed walls shield", "statement": "If conducting or magnetic walls inside the domain separate two parts of the mesh, nothing that happens in one part, initial fields or sources, changes the fields of the other, with any integrator.", "quantifier": "all meshes, closed walls, materials, sources, integrators, lists of steps", "why_tests_cant": "Leakage through a wall may be small and depends on the mesh; a test can only bound it on one mesh.", "anchors": ["src/components/DGOperatorFactory.h:buildGlobalOperator", "src/evolution/GlobalEvolution.cpp:Mult"]}
{"id": "C135", "title": "Reciprocity", "statement": "Transmitter and receiver can be exchanged: for any two shapes, any pulse and any initial amplitude, what the second shape reads of a run excited with the first equals what the first reads of a run excited with the second (electric minus magnetic part), with every integrator and any steps, also with losses, upwinded fluxes, walls and absorbing boundaries.", "quantifier": "all meshes, materials, symmetric conductivities, boundary conditions, shapes, pulses, integrators, lists of steps", "why_tests_cant": "A symmetry of the whole solution operator, for all pairs of excitations.", "anchors": ["src/components/DGOperatorFactory.h:buildGlobalOperator", "src/evolution/GlobalEvolution.cpp:Mult", "src/evolution/GlobalEvolution.cpp:ImplicitSolve"]}
{"id": "C136", "title": "Superposition", "statement": "The response to several sources is the sum of the responses to each of them. Proved for the equations of the operator with any given sources, with every integrator. Violated for plane waves: they are skipped while their values are below 1e-8, so two waves of 4e-9 act together and none alone; the responses differ by at most a constant times the elapsed time times 1e-8.", "quantifier": "all meshes, materials, sources, initial fields, coefficients, integrators, lists of steps", "why_tests_cant": "Linearity is a statement about all sources and initial fields; a threshold breaks it only for small ones.", "anchors": ["src/evolution/GlobalEvolution.cpp:Mult", "src/solver/SourcesManager.cpp:evalTimeVarFieldDirect"]}
{"id": "C137", "title": "Consistency gives convergence", "statement": "For any fields that satisfy the equations of the operator up to a residual, such as the fields of the continuous problem interpolated on the mesh, the fields at the end of a run differ from them by at most the initial difference, plus the elapsed time times the residual, plus a constant times the step to the order of the integrator: neither the number of steps nor the boundary conditions amplify the residual.", "quantifier": "all meshes, materials, boundary conditions, smooth sources, final times, integrators, numbers and sizes of steps (explicit: within the stability bound)", "why_tests_cant": "An error bound for all fields and residuals.", "anchors": ["src/evolution/GlobalEvolution.cpp:Mult", "src/evolution/GlobalEvolution.cpp:ImplicitSolve", "src/driver/driver.cpp:assignODESolver"]}
{"id": "C138", "title": "Curved elements are evolved by the nodal operator with their true shape", "statement": "On a mesh with straight and curved elements every element is handled once: those displaced by curvature by the rows of the global operator, with their shape, materials and losses, the others by the nodal formulas. If the elements that pass for straight are straight, of vacuum and lossless triangles or tetrahedra, the nodal operator and any explicit run with it agree with the global operator; a total-field surface that touches a curved element is rejected.", "quantifier": "all meshes with any mixture of straight and curved elements, orders, states, sources, numbers and sizes of steps", "why_tests_cant": "Equality of two operators on all meshes and states; which meshes are noticed to be curved.", "anchors": ["src/evolution/HesthavenEvolution.cpp:initCurvedAndLinearElementsLists", "src/evolution/HesthavenEvolution.cpp:checkForTFSFInCurvedElements", "src/evolution/HesthavenEvolution.cpp:isDoFinCurvedElement", "src/evolution/HesthavenEvolution.cpp:Mult"]}
{"id": "C139", "title": "A resonant initial field starts a standing wave", "statement": "A resonant initial field has the value of the product of the sines of its modes, along its polarisation, in its own field and nothing in the other; it is the state at time zero of a solution of Maxwell's equations between conducting walls that oscillates at the frequency of the mode.", "quantifier": "all mode numbers, polarisations, field types, mesh dimensions and points", "why_tests_cant": "Statement about all modes, points and times, and about the existence of a solution.", "anchors": ["src/math/Function.h:SinusoidalMode::eval", "src/math/Function.h:TM2DSinusoidalMode::eval", "src/math/Function.h:TM2D_Dx_SinusoidalMode::eval", "src/math/Function.h:TM2D_Dy_SinusoidalMode::eval", "src/driver/driver.cpp:buildResonantModeInitialField", "src/components/Sources.cpp:InitialField::eval"]}
{"id": "C140", "title": "A Gaussian initial field starts a solution of Maxwell's equations, on a line two pulses", "statement": "A Gaussian initial field is a bell about its centre over the coordinates it depends on, and the state at time zero of a solution of Maxwell's equations with the other field at rest; along a line the solution is two pulses of half the height that travel apart with the speed of light.", "quantifier": "all spreads, centres, polarisations, field types, dimensions and points", "why_tests_cant": "Statement about all points and times, and about the existence of a solution.", "anchors": ["src/math/Function.h:Gaussian::eval", "src/driver/driver.cpp:buildGaussianInitialField", "src/components/Sources.cpp:InitialField::eval"]}
{"id": "C141", "title": "The quadratures of the global operator integrate by parts exactly", "statement": "The stiffness and face matrices the solver assembles with the quadrature orders it asks for satisfy discrete integration by parts: for every pair of discrete fields the two volume terms sum to the boundary terms of the faces. Hence the energy of the discrete fields never grows; without it, with a conservative flux, some field gains energy.", "quantifier": "all meshes of straight or curved segments, triangles and tetrahedra, all orders, all quadratures of the orders asked for; single curved quadrilaterals and hexahedra for the negative part", "why_tests_cant": "The identity is one equation per pair of fields on every mesh, order and deformation; tests on a few meshes at a tolerance do not see an aliasing error.", "anchors": ["src/mfemExtension/IntegratorFunctions.cpp:setIntegrationRule", "src/mfemExtension/BilinearIntegrators.cpp:DerivativeIntegrator::AssembleElementMatrix", "src/mfemExtension/BilinearIntegrators.cpp:MaxwellDGTraceJumpIntegrator::AssembleFaceMatrix", "src/components/DGOperatorFactory.h:buildDerivativeSubOperator"]}
{"id": "C142", "title": "A valid mesh with valid materials gives a stable simulation", "statement": "From a conforming mesh of non-degenerate elements and a material with positive permittivity and permeability and no negative conductivity for every element, the solver assembles a system whose energy is the integral of the energy density of the discrete fields (half of permittivity times E squared plus permeability times H squared) and is positive for every field that is not zero. This energy never grows: not in the equations, not with any implicit time integrator for any steps, and with the explicit integrator there is a step below which the difference of two simulations stays bounded for ever.", "quantifier": "all meshes of straight or curved segments, triangles and tetrahedra, all orders, all material tables, all upwind blendings that are not negative, all initial fields, all step sequences", "why_tests_cant": "Every mesh, order and table gives another set of matrices; a test runs a few of them for a few steps.", "anchors": ["src/components/DGOperatorFactory.h:buildInverseMassMatrixSubOperator", "src/components/DGOperatorFactory.h:buildSigmaMassOperator", "src/components/Model.cpp:buildEpsMuPiecewiseVector", "src/components/Model.cpp:buildSigmaPiecewiseVector", "src/evolution/GlobalEvolution.cpp:Mult"]}
{"id": "C143", "title": "Polynomial fields change exactly as Maxwell's equations say", "statement": "If on every element of a valid mesh with valid materials the fields are polynomials of the position that the order of the elements can represent, their tangential components are continuous between elements and they obey the conditions of the boundaries (no tangential E on PEC, no tangential H on PMC, an outgoing wave on SMA), then the rate of change the solver computes is the one of Maxwell's equations, without any error: curl H less the current over the permittivity, less curl E over the permeability. A field given by the same polynomials on all elements is continuous in this sense. A static solution of this kind stays as it is with every time integrator and every sequence of steps.", "quantifier": "all meshes of straight or curved segments, triangles and tetrahedra, all orders, all material tables and conductivities, all boundaries, all polynomial fields within the order, all upwind blendings, all integrators and step sequences", "why_tests_cant": "A test checks one field on one mesh up to a tolerance; the signs, factors, normals, quadratures and boundary coefficients must be right together on every mesh.", "anchors": ["src/evolution/GlobalEvolution.cpp:Mult", "src/components/DGOperatorFactory.h:buildGlobalOperator", "src/components/DGOperatorFactory.h:buildInverseMassMatrixSubOperator", "src/mfemExtension/BilinearIntegrators.cpp:MaxwellDGTraceJumpIntegrator::AssembleFaceMatrix", "src/components/Model.cpp:buildEpsMuPiecewiseVector"]}
{"id": "C144", "title": "Refining the mesh converges to the solution of Maxwell's equations", "statement": "Let smooth fields solve Maxwell's equations in every element, with continuous tangential components between elements and the conditions of the boundaries obeyed. On a valid mesh of straight elements of order p, none larger than h nor thinner than h/rho, the run that starts at the values of these fields at the nodes keeps near their values at the nodes: the energy norm of the error at the time t is at most K(1+t)B h^p times the square root of the volume, plus the error of the time steps (of the order of the integrator). K depends on the order, rho, the bounds of the materials, the nodes and the upwind blending only, and not on the mesh, its size or the solution; B bounds the derivatives of order p+1 of the solution. So on all meshes that are fine enough the error is below any given bound. The fields shown between the nodes are within order h^(p+1) of the solution.", "quantifier": "all meshes of straight segments, triangles and tetrahedra of bounded thinness, all sizes, all orders, all material tables and conductivities within bounds, all boundaries, all smooth solutions, all upwind blendings, all integrators and step sequences within their limits", "why_tests_cant": "A convergence test looks at a few meshes and one solution; the constant must be the same for all meshes, and any inconsistent sign, factor or boundary coefficient destroys convergence.", "anchors": ["src/evolution/GlobalEvolution.cpp:Mult", "src/components/DGOperatorFactory.h:buildGlobalOperator", "src/mfemExtension/BilinearIntegrators.cpp:MaxwellDGTraceJumpIntegrator::AssembleFaceMatrix", "src/solver/Solver.cpp:step", "src/components/Sources.cpp:InitialField"]}
{"id": "C145", "title": "Charge is conserved", "statement": "On every valid mesh with valid materials, whatever the fields: electric charge, measured against any continuous test function that is level on every wall that holds charge (all boundaries but magnetic walls) and whose gradient the elements can hold, changes exactly by what the currents in conductors carry; magnetic charge, measured the same way (all boundaries but electric walls), does not change. On straight elements of order p these are all continuous test functions of order p+1. With every integrator and whatever the steps, magnetic charge, and without conductors electric charge, stay what they were at the start, as long as the sources bring none; so a field that obeys Gauss's law at the start obeys it for ever.", "quantifier": "all meshes of straight or curved segments, triangles and tetrahedra, all orders, all material tables, all boundaries, all states, all upwind blendings, all integrators and step sequences", "why_tests_cant": "Divergence is never computed by the code, and a run only shows it for one field: a flux that is not tangential, or a volume term that is not a curl, would create charge for some fields on some meshes.", "anchors": ["src/evolution/GlobalEvolution.cpp:Mult", "src/components/DGOperatorFactory.h:buildGlobalOperator", "src/mfemExtension/BilinearIntegrators.cpp:MaxwellDGTraceJumpIntegrator::AssembleFaceMatrix", "src/solver/Solver.cpp:step"]}
{"id": "C146", "title": "Quadrilaterals and hexahedra simulate stably", "statement": "On every valid straight mesh of segments, triangles, quadrilaterals, tetrahedra or hexahedra, in two dimensions triangles and quadrilaterals also together, quadrilaterals of any convex form and hexahedra with twisted faces: the code assembles a problem whose discrete integration by parts is exact and whose energy is the integral of the fields' energy density, positive for every field that is not zero; the energy never grows, and does not change in a closed cavity without losses and with centred fluxes; implicit runs end with no more energy whatever the steps, and explicit runs are stable below some step.", "quantifier": "all straight conforming meshes of these elements, all orders, all material tables, all boundaries, all states, all quadratures exact to the order the code asks for, all integrators and step sequences", "why_tests_cant": "The Jacobian varies inside such an element, so whether the orders asked of the quadratures suffice depends on degrees that a test on rectangles never reaches; an order one too low lets some field on some mesh gain energy.", "anchors": ["src/components/DGOperatorFactory.h:buildDerivativeSubOperator", "src/mfemExtension/IntegratorFunctions.cpp:setIntegrationRule", "src/mfemExtension/BilinearIntegrators.cpp:MaxwellDGTraceJumpIntegrator::AssembleFaceMatrix", "src/components/Model.cpp:buildEpsMuPiecewiseVector"]}
{"id": "C147", "title": "Rational impedances are recovered by the pole fit", "statement": "If the impedance of a thin layer at the fitted frequencies is that of a circuit with n poles, and at least 2n+1 frequencies are used, the fit of order n returns exactly the circuit's poles and residues (in some order), has no error, is accepted as stable exactly if all poles decay, and the search over orders does not end with a worse fit; a series resistance in the circuit is kept.", "quantifier": "all numbers of poles, all poles and residues that are different and not zero, all sets of frequencies, all answers of a numerical library that solves least squares and eigenvalues", "why_tests_cant": "Whether the linearised system, the scaling, the companion matrix and the second least squares fit together for every circuit is an algebraic identity in all poles; a test fits one curve and accepts a tolerance.", "anchors": ["src/components/SIBCPoleResidueFitting.cpp:runFit", "src/components/SIBCPoleResidueFitting.cpp:build_system", "src/components/SIBCPoleResidueFitting.cpp:findBestFit"]}
{"id": "C148", "title": "The fitted impedance is that of the conducting sheet", "statement": "The impedance handed to the fit for a layer is, at every frequency, that of a transmission line with the layer's series impedance and shunt admittance, as long as the layer is wide and open at its end, for waves that are damped; its real part is positive at every frequency, so the layer takes energy and never gives any; at low frequencies it is the resistance 1/(sigma d) of a square of the sheet.", "quantifier": "all layers with positive permittivity, permeability, conductivity and width, all positive frequencies", "why_tests_cant": "The formula goes through two complex square roots whose branches must agree for every material and frequency; a wrong branch turns damped waves into growing ones only for some of them.", "anchors": ["src/components/SIBCPoleResidueFitting.cpp:generatePhysicsTarget", "src/math/PhysicalConstants.h:vacuumPermittivity_SI"]}
{"id": "C149", "title": "The automatic time step makes explicit runs stable", "statement": "On meshes of straight segments, triangles or tetrahedra the rate of change of the fields is at most a constant times (inverse of the smallest height of an element plus conductivity) times the fields, where the constant depends only on order, dimension, smallest permittivity or permeability and upwind parameter. So there is a CFL number, the same for all meshes, with which the automatic time step makes every explicit run stable for all times: two runs with the same sources never separate by more than a fixed factor. Conductors do not change this.", "quantifier": "all conforming meshes of straight simplices of any number, size and shape of elements (no bound on how flat they are), all materials above a bound, all orders, all sources, all numbers of steps", "why_tests_cant": "A test runs one mesh for some steps; an unstable step shows after as many steps as one likes and only on the worst element of the worst mesh.", "anchors": ["src/solver/Solver.cpp:estimateTimeStep", "src/solver/Solver.cpp:calcMeshTimeStep", "src/solver/Solver.cpp:getMinimumInterNodeDistance", "src/evolution/GlobalEvolution.cpp:Mult"]}
{"id": "C150", "title": "Runs converge to the solution of Maxwell's equations, uniformly in the mesh", "statement": "A run that starts from the values at the nodes of a smooth solution of Maxwell's equations ends, at any later time, within K (1 + t) (h^p + dt^k) of the values of that solution, in the energy norm, where p is the order of the elements and k that of the integrator. K depends on the shape of the elements, the materials, the order and the upwind parameter, but not on the mesh, the number of elements or the number of steps. The implicit integrators need no limit on the step; the explicit one needs dt at most a fixed multiple of h.", "quantifier": "all conforming meshes of straight simplices of bounded shape in one, two and three dimensions, all orders of elements, all smooth solutions with bounded derivatives, all walls, all integrators, all sequences of steps", "why_tests_cant": "A convergence test measures a handful of meshes; that the constant does not grow as mesh and step are refined together, in every geometry, is a statement about all of them.", "anchors": ["src/evolution/GlobalEvolution.cpp:Mult", "src/evolution/GlobalEvolution.cpp:ImplicitSolve", "src/solver/Solver.cpp:step", "src/components/DGOperatorFactory.h:buildGlobalOperator"]}
{"id": "C151", "title": "Everything a simulation records is read from fields that solve Maxwell's equations", "statement": "A simulation built from its options and run by its main loop ends, with its clock at the final time to within 1e-8 of a step. Everything each probe has recorded by then is its reading, at the recorded time, of fields whose distance to the solution of Maxwell's equations, in the energy norm, is at most K (1 + t) (h^p + dt^k). With the time step the solver chooses itself from the mesh the distance is at most K (1 + t) (h^p + h^4), provided the CFL number given is below a bound that does not depend on the mesh.", "quantifier": "all conforming meshes of straight simplices of bounded shape, all orders of elements, all smooth solutions, all walls, all integrators, all final times and steps, all lists of probes with any saving intervals", "why_tests_cant": "The statement joins options, time step rule, operator, integrator, main loop and probes for all meshes and final times; a test compares one run with one reference.", "anchors": ["src/solver/Solver.cpp:Solver", "src/solver/Solver.cpp:run", "src/solver/Solver.cpp:step", "src/solver/ProbesManager.cpp:updateProbes", "src/solver/SolverOptions.h"]}
{"id": "C152", "title": "The values point probes record converge to the exact fields at that point", "statement": "The value a field probe records at a point differs from the exact field at that point and recorded time by at most K (1 + t) (h^p + h^4) / h^((n+1)/2), where n + 1 is the dimension of the mesh, so that the records converge to the exact fields as the mesh is refined when p and 4 exceed half the dimension.", "quantifier": "all conforming meshes of straight simplices of bounded shape, all points inside, all orders of elements above half the dimension, all smooth solutions, all walls, all final times", "why_tests_cant": "Bounds in energy say nothing about a single point for a given mesh; the pointwise statement needs all meshes and all points.", "anchors": ["src/solver/ProbesManager.cpp:updateProbe", "src/solver/ProbesManager.cpp:buildPointProbeCollectionInfo", "src/solver/Solver.cpp:run", "src/solver/Solver.cpp:estimateTimeStep"]}
{"id": "C153", "title": "Scattering simulations converge to the scattered and total fields", "statement": "A simulation that injects plane waves (or any smooth waves satisfying Maxwell's equations in the scattered-field region) on the surface between a total-field and a scattered-field region, evaluating the waves at the nodes and skipping them where they are weaker than the code's threshold, ends with the total field inside the surface and the total field less the waves outside it. In the energy norm the distance is at most K (1 + t) B h^p sqrt(volume), with K independent of mesh, waves and run, plus the error of the integrator (of its order in dt, for the explicit and every implicit integrator) and the effect of the threshold. With one-sided and with two-sided source meshes, and, for the explicit integrator, on any number of ranks.", "quantifier": "all conforming meshes of straight simplices of bounded shape, all orders, all closed or open surfaces of interior faces, all smooth waves and scatterers, all walls and boundaries, all steps within the limit, all partitions", "why_tests_cant": "A test injects one wave in one mesh and looks at a few probes; that injection commits no error beyond that of the discretisation concerns every mesh, wave and surface.", "anchors": ["src/components/DGOperatorFactory.h:buildTFSFGlobalOperator", "src/evolution/GlobalEvolution.cpp:applyTFSFSourceToVector", "src/components/Model.cpp:getTotalFieldScatteredFieldToMarker", "src/solver/SourcesManager.cpp"]}
{"id": "C154", "title": "Parallel runs come to their end and all ranks agree", "statement": "A run on several ranks with the explicit integrator ends on every rank, in whatever order the ranks move: all ranks make the same collective calls in the same order (barriers, reductions, gatherings and files of probes, exchanges with neighbours), whichever part of the injection surface they own and whenever the fields of one of them look unstable. Every reduction gives every rank the largest (smallest) number the ranks contributed. With implicit integrators the run ends if the linear solvers of all ranks make the same number of products.", "quantifier": "all numbers of ranks, neighbourhoods, cases with valid options and usable probes, local data and orders of execution", "why_tests_cant": "A test runs one order of the ranks on one case; a rank that waits forever shows only for particular data on particular ranks.", "anchors": ["src/driver/driver.cpp:buildModel", "src/solver/Solver.cpp:run", "src/solver/Solver.cpp:step", "src/solver/ProbesManager.cpp:updateProbes", "src/solver/SourcesManager.cpp:SourcesManager", "src/evolution/GlobalEvolution.cpp:Mult", "src/evolution/GlobalEvolution.cpp:ImplicitSolve"]}
{"id": "C155", "title": "Every rank reads the whole mesh", "statement": "Every time a rank reads the mesh of a case it reads the whole file as rank zero left it, in whatever order the ranks move, although rank zero rewrites the file before it is read.", "quantifier": "all mesh files, numbers of ranks, numbers of readings and orders of execution of rewriting, barriers and reading", "why_tests_cant": "The order in which ranks reach a file cannot be chosen in a test; a race shows only for large files on slow discs.", "anchors": ["src/driver/driver.cpp:fixGmshMesh", "src/driver/driver.cpp:assembleMesh", "src/driver/driver.cpp:buildModel"]}
{"id": "C156", "title": "A stop at start leaves the mesh of the user intact", "statement": "If the program is stopped at any moment while it reads the mesh of a case, the mesh file is afterwards the one the user gave or its normalised form, never a part of it.", "quantifier": "all mesh files and all moments of the reading", "why_tests_cant": "A crash point between the emptying of a file and the last write cannot be chosen in a test.", "anchors": ["src/driver/driver.cpp:fixGmshMesh", "src/driver/driver.cpp:assembleMesh"]}
{"id": "C157", "title": "The exported operator applied to an exported state gives its rates", "statement": "The file of the exported operator denotes the matrix that the run applies, and multiplying it outside the program by the vector of a snapshot, in the documented layout Ex Ey Ez Hx Hy Hz, gives the rates of the fields. Proved up to six millionths of the magnitudes of the terms and what the threshold 1e-20 drops; the non-zero places are exact.", "quantifier": "all problems, sparse storages of the blocks, states and instants", "why_tests_cant": "The statement is about every entry of every operator and every state; a test compares one matrix.", "anchors": ["src/components/DGOperatorFactory.h:buildGlobalOperator", "src/components/DGOperatorFactory.h:mergeBlocksToCSR", "src/solver/ProbesManager.cpp:updateProbe", "README.md:mor_state"]}
{"id": "C158", "title": "The default CFL number and upwind parameter keep the fields in a closed metallic box bounded", "statement": "With the options left at their defaults (CFL number one, upwind parameter one, explicit integrator) and the automatic time step, the electromagnetic energy in a vacuum enclosed by metallic walls does not grow. The code violates it at order one: on segments of equal length a saw-toothed disturbance of any size is multiplied by 31 at every step, on equal isosceles triangles by 5; the growth disappears only when the product of both numbers is below one half, respectively three quarters, for these disturbances.", "quantifier": "all meshes of segments of equal length and of congruent isosceles triangles, all CFL numbers and upwind parameters, initial fields, sources, sizes of the disturbance and numbers of steps", "why_tests_cant": "A test at the default order two, or with a smaller CFL number, or over few steps from smooth fields, does not show it; the statement is about every mesh and every number of steps.", "anchors": ["src/solver/Solver.cpp:estimateTimeStep", "src/solver/Solver.cpp:calcMeshTimeStep", "src/solver/SolverOptions.h", "src/evolution/EvolutionOptions.h", "src/evolution/GlobalEvolution.cpp"]}
{"id": "C159", "title": "Implicit stages of large or distributed problems are solved to the tolerance, whatever the vector held before", "statement": "With an implicit integrator, a problem with more than a hundred nodes (or distributed over several ranks) is solved iteratively at every stage. Whatever the mesh, the step and the earlier stages, the solve ends with at most 1e-8 of the residual it started from, or the run is stopped; and the run stays within ten times the elapsed time times the worst residual of its stages of the run with the direct solver. The second part holds. The first is violated: when the four hundred iterations are spent the unfinished answer is used without notice, which a step of a few hundred crossing times of a cell brings about on a line of 803 cells; and because the residual is measured against what the vector held before, which on the first solve is uninitialised memory, fields at rest without sources are given a rate that grows without bound with that content.", "quantifier": "all problems that can only lose energy, all steps, sources, fields, memory contents and integrators; the tolerance for all steps up to three times the inverse of the norm of the operator", "why_tests_cant": "Convergence within the iteration limit depends on step size and mesh; tests use few elements, which take the direct branch, and memory that happens to be zero.", "anchors": ["src/evolution/GlobalEvolution.cpp:ImplicitSolve", "src/evolution/GlobalEvolution.h:dense_solve_threshold_", "src/solver/Solver.cpp:selectODESolver"]}
{"id": "C160", "title": "Polynomial fields are exact on quadrilaterals and hexahedra too", "statement": "If on every element of a valid straight mesh (segments, triangles, quadrilaterals, tetrahedra, hexahedra, also mixed in the plane) the fields are polynomials of the position, their tangential components are continuous between elements and they obey the conditions of the boundaries, then the rate of change the solver computes is the one of Maxwell's equations without any error. Elements of order p hold every field of total degree p of the position, in exactly one way, however the quadrilaterals and hexahedra are skewed or twisted. A static solution of this kind stays as it is with every integrator and every sequence of steps.", "quantifier": "all straight conforming meshes of these elements, all orders, all material tables and conductivities, all boundaries, all polynomial fields the elements hold, all upwind blendings, all integrators and step sequences", "why_tests_cant": "On a skewed quadrilateral a linear field of the position is not linear on the reference square and its derivatives are rational functions; whether the quadratures still give the exact rate depends on cancellations that tests on rectangles never reach.", "anchors": ["src/components/DGOperatorFactory.h:buildDerivativeSubOperator", "src/mfemExtension/IntegratorFunctions.cpp:setIntegrationRule", "src/mfemExtension/BilinearIntegrators.cpp:MaxwellDGTraceJumpIntegrator::AssembleFaceMatrix", "src/evolution/GlobalEvolution.cpp:Mult"]}
{"id": "C161", "title": "Refining meshes of quadrilaterals and hexahedra converges to the solution of Maxwell's equations", "statement": "Let fields that are smooth in every element solve Maxwell's equations there, with continuous tangential components between elements and the conditions of the boundaries obeyed. On a valid straight mesh of segments, triangles, quadrilaterals, tetrahedra or hexahedra of order p, none larger than h nor thinner than h/rho, the run that starts at the values of these fields at the nodes keeps near their values at the nodes: the energy norm of the error at the time t is at most K(1+t)B h^p times the square root of the volume, plus the error of the time steps (of the order of the integrator). K depends on the order, rho, the bounds of the materials, the nodes and the upwind blending only. So on all meshes that are fine enough the error is below any given bound. The fields shown between the nodes are within order h^(p+1) of the solution.", "quantifier": "all straight meshes of these elements of bounded thinness (also with quadrilaterals that do not become parallelograms under refinement), all sizes, all orders, all material tables and conductivities within bounds, all boundaries, all smooth solutions, all upwind blendings, all integrators and step sequences within their limits", "why_tests_cant": "A convergence test looks at a few meshes and one solution; on skewed quadrilaterals the Jacobian varies inside the element, and the rate must not be lost on any of them.", "anchors": ["src/evolution/GlobalEvolution.cpp:Mult", "src/components/DGOperatorFactory.h:buildGlobalOperator", "src/mfemExtension/IntegratorFunctions.cpp:setIntegrationRule", "src/mfemExtension/BilinearIntegrators.cpp:MaxwellDGTraceJumpIntegrator::AssembleFaceMatrix"]}
{"id": "C162", "title": "Runs with the nodal operator converge to the solution of Maxwell's equations in vacuum", "statement": "On a mesh of straight triangles or straight tetrahedra of order p whose elements all have the same nodes, with metallic and magnetic walls (and absorbing ones if the flux is upwind), the nodal operator and the assembled global operator describe the same system whatever the size of the mesh. So in vacuum an explicit run gives the same fields with either, at every step; and the fields of a run with the nodal operator that starts at the nodal values of a smooth solution stay within a constant times h^p + dt^4 of its nodal values, provided the step is at most another constant times h. Neither constant depends on the mesh, on the solution or on the number of steps, so refining the mesh with steps in proportion gives any accuracy wanted.", "quantifier": "all straight conforming meshes of triangles or of tetrahedra of bounded thinness, all sizes and orders, all arrangements of the walls, all smooth vacuum solutions, all upwind blendings, all numbers of steps", "why_tests_cant": "The nodal operator is built from reference matrices, Jacobians, face numberings and node pairings instead of assembled face by face; tests compare it with a few analytic modes on a few meshes, where a pairing or scaling wrong for one orientation of a face need not occur.", "anchors": ["src/evolution/HesthavenEvolution.cpp:HesthavenEvolution::Mult", "src/evolution/HesthavenEvolution.cpp:HesthavenEvolution", "src/evolution/HesthavenEvolutionMethods.cpp:assembleEmat", "src/components/DGOperatorFactory.h:buildGlobalOperator"]}
{"id": "C163", "title": "Every under-resolved thin layer is reported", "statement": "For every conducting thin layer of a model the solver says at the start whether its segments are shorter than the skin depth at 10 GHz, 1 GHz and 1 MHz, and calls it severely coarse if they are not even shorter than the last; and when the time step of the simulation is longer than the one recommended for a layer it says so.", "quantifier": "all models with any number of thin layers and conductors, all histories of building and stepping layers in a process, all time steps", "why_tests_cant": "What is printed depends on flags that live as long as the process and on which layer happens to come first; a test with one layer sees the right message.", "anchors": ["src/solver/SolverExtension.cpp:checkSkinDepthResolution", "src/solver/SolverExtension.cpp:SGBCWrapper::SGBCWrapper", "src/solver/SolverExtension.cpp:SGBCWrapper::solve", "src/evolution/GlobalEvolution.cpp:finalizeSGBCStep"]}
{"id": "C164", "title": "Thin layers on several ranks", "statement": "With thin layers in the problem, a rank that holds some of the nodes and the layers between them gets, at every request of the time integrator, exactly its part of the rate of change that one rank holding everything gets, and after every step its layers have the same fields as on one rank.", "quantifier": "all problems without plane-wave sources, numbers of layers and nodes, numberings, splits that keep both sides of a layer together, inner solvers that map zero to zero, sequences of checkpoints, rates and ends of steps", "why_tests_cant": "The split and the history are unbounded, and the difference only shows when one layer is weak while another, on a different rank, is strong.", "anchors": ["src/evolution/GlobalEvolution.cpp:Mult", "src/evolution/GlobalEvolution.cpp:finalizeSGBCStep", "src/evolution/GlobalEvolution.cpp:commitSGBCCheckpoint", "src/solver/Solver.cpp:step"]}
{"id": "C165", "title": "The run ends in floating-point arithmetic", "statement": "With times held as binary numbers of 53 bits and every operation rounded to nearest, run() still returns, never passes the final time, stops within a negligible part of a step of it, and shows strictly growing instants to the probes, the first being zero.", "quantifier": "all time steps, final times, ways of breaking ties, integrators and fields", "why_tests_cant": "It concerns numbers of steps from one to hundreds of millions and every rounding on the way; tests use short runs.", "anchors": ["src/solver/Solver.cpp:run", "src/solver/Solver.cpp:step"]}
{"id": "C166", "title": "The tables of the nodal operator describe the mesh", "statement": "When a solver with the nodal (hesthaven) operator is built on a mesh of one type of element in two or three dimensions, the connectivity it computes pairs every node of every face of every element with the node of the neighbour at the same place, or with itself on the outer boundary, and the tables of conducting, magnetic, absorbing and total-field faces hold exactly the nodes of the faces that the input file gives that condition, so that the operator agrees with the global one as in C129 for the tables it really builds.", "quantifier": "all meshes with any number of elements, orders, matchings of nodes across faces, lists of boundary elements with their conditions, and total-field surfaces", "why_tests_cant": "Places are found by searching for equal values in coupling matrices and for runs of equal node numbers in one long list; a false match needs a particular mesh or order, which tests on a few meshes do not show.", "anchors": ["src/evolution/HesthavenEvolutionMethods.cpp:assembleGlobalConnectivityMap", "src/evolution/HesthavenEvolutionMethods.cpp:Connectivities", "src/evolution/HesthavenEvolutionMethods.cpp:initBdrConnectivityMaps", "src/evolution/HesthavenEvolutionMethods.cpp:initIntFaceConnectivityMaps", "src/evolution/HesthavenEvolutionMethods.cpp:findMapBIDForFaceNodes"]}
{"id": "C167", "title": "Charge is conserved on quadrilaterals and hexahedra too", "statement": "On every valid straight mesh of segments, triangles, quadrilaterals, tetrahedra and hexahedra with valid materials, whatever the fields: electric charge, measured against any continuous test function that is level on every wall that holds charge (all boundaries but magnetic walls) and whose gradient the elements can hold, changes exactly by what the currents in conductors carry; magnetic charge, measured the same way (all boundaries but electric walls), does not change. Elements of order p hold the gradients of all test functions of degree p+1 in the position, however skewed the quadrilaterals and hexahedra are. With every integrator and whatever the steps, magnetic charge, and without conductors electric charge, stay what they were at the start, as long as the sources bring none.", "quantifier": "all straight meshes of these elements (triangles and quadrilaterals also mixed), all orders, all material tables, all boundaries, all states, all upwind blendings, all integrators and step sequences", "why_tests_cant": "the balance is an identity of the assembled operator on every mesh, for every state and test function; tests see single meshes and fields", "anchors": ["src/components/DGOperatorFactory.h: buildDerivativeSubOperator, buildOneNormalSubOperator", "src/mfemExtension/BilinearIntegrators.cpp", "src/evolution/GlobalEvolution.cpp: Mult"]}
{"id": "C168", "title": "The far field is integrated over the surface the user chose and nothing else", "statement": "The faces over which the far field is integrated, and which the surface exporter writes, are exactly the faces of the elements around the surface on which the user drew a boundary with one of the tags of the probe.", "quantifier": "all meshes, all sub-meshes around the surface with any map of faces, all tags of the probe and of the other boundaries", "why_tests_cant": "it must hold for every numbering of faces and every choice of tags; tests use single meshes with tags that do not collide with the numbers the code uses itself", "anchors": ["src/components/SubMesher.cpp: setBoundaryAttributesInChild, createSubMeshFromParent", "src/components/FarField.cpp: getNearToFarFieldMarker", "src/solver/ProbesManager.cpp: buildSurfaceMarker", "src/components/RCSSurfaceExporter.cpp"]}
{"id": "C169", "title": "Thin layers on curved faces use the normal of the surface at each node", "statement": "The frame in which the fields at a node of a thin-layer face enter the layer has the normal of the face at that node as its axis: on straight faces the one normal of the face, on curved faces the normal of the surface at the place of the node.", "quantifier": "all faces in two and three dimensions, straight or curved, all orders, all nodes", "why_tests_cant": "the normal at a node depends on the geometry of every face; tests check straight faces or compare whole runs", "anchors": ["src/components/SubMesher.cpp: computePerDofFaceNormals, getNormalAtRefPoint", "src/evolution/GlobalEvolution.cpp: constructor"]}
{"id": "C170", "title": "Lossless runs can be played backwards", "statement": "Without upwinding, conductivity and absorbing boundaries, a run with the midpoint or the trapezoidal rule can be undone: started from its last fields with the magnetic field reversed, with the same steps in the opposite order and the sources played backwards, the solver ends in the first fields with the magnetic field reversed, for steps of any size. A run that lost energy cannot be undone this way.", "quantifier": "all meshes, orders, boundaries that do not absorb, sources, initial fields, sequences of step sizes", "why_tests_cant": "an exact identity for every mesh, source and sequence of steps; a test compares a few runs within a tolerance", "anchors": ["src/evolution/GlobalEvolution.cpp: Mult, ImplicitSolve", "src/components/DGOperatorFactory.h: buildGlobalOperator", "src/solver/Solver.cpp: assignODESolver"]}
{"id": "C171", "title": "Electric and magnetic fields play the same part", "statement": "Without conductors, exchanging permittivity and permeability, electric and magnetic walls, and the electric field for the magnetic one (with a sign) gives the same simulation: the fields of every run of the exchanged problem, with every integrator, steps and sources, are the exchanged fields of the run, with the same energy.", "quantifier": "all meshes, materials without conductivity, conditions on boundaries and inside the mesh, upwind parameters, integrators, sequences of steps, sources, initial fields", "why_tests_cant": "an identity between two simulations for every problem; tests use one kind of wall at a time", "anchors": ["src/components/DGOperatorFactory.h: bdrCentCoeff, bdrUpwindCoeff, buildGlobalOperator", "src/evolution/GlobalEvolution.cpp: Mult", "src/solver/Solver.cpp: assignODESolver"]}
{"id": "C172", "title": "The unit of length does not change the results", "statement": "With the global operator, a case in other units of length (all coordinates of the mesh multiplied by a number, conductivities divided by it, times multiplied by it since the speed of light is one) gives the same fields at the same instants, with every integrator, and the automatic time step is converted like any other time.", "quantifier": "all meshes, materials, conditions, integrators, sequences of steps, sources, initial fields, all positive ratios of units", "why_tests_cant": "an identity between simulations for every ratio of units; tests run one mesh in one unit", "anchors": ["src/components/DGOperatorFactory.h: buildGlobalOperator", "src/mfemExtension/BilinearIntegrators.cpp", "src/solver/Solver.cpp: estimateTimeStep, calcMeshTimeStep, getMinimumInterNodeDistance, assignODESolver"]}
{"id": "C173", "title": "A conducting wall stands for a plane of symmetry", "statement": "With the global operator, simulating half of a body with a perfect electric (magnetic) wall in its plane of symmetry gives, with every integrator, exactly the fields of a simulation of the whole body that starts and is driven with fields of that symmetry; the whole body holds twice the energy of the half, and it cannot gain energy if the half cannot.", "quantifier": "all meshes with a plane boundary perpendicular to a coordinate axis, materials and other conditions, upwind parameters, integrators, sequences of steps, sources, initial fields, both kinds of wall and all three axes", "why_tests_cant": "an identity between the simulations of two different meshes, for every field; tests compare a few fields with analytic solutions up to a tolerance", "anchors": ["src/components/DGOperatorFactory.h: buildGlobalOperator", "src/mfemExtension/BilinearIntegrators.cpp", "src/solver/Solver.cpp: assignODESolver"]}
{"id": "C174", "title": "Energy goes from element to element only through their common faces", "statement": "With the global operator the energy in any set of elements changes exactly at the rate at which the sources work in it, less the power through the faces of its surface, the losses at its walls, boundaries and in its conductors, and the losses of the upwind terms at the faces inside it. The power through a face depends only on the fields on that face; it is the flux of Poynting's vector when the tangential fields agree on both sides; and what leaves one side enters the other but for the loss of the upwind terms.", "quantifier": "all meshes, materials, conditions, upwind parameters, fields, sources and sets of elements", "why_tests_cant": "a balance for every field and every one of the exponentially many sets of elements; tests follow the total energy of a few runs", "anchors": ["src/components/DGOperatorFactory.h: buildGlobalOperator", "src/mfemExtension/BilinearIntegrators.cpp"]}
{"id": "C175", "title": "Static fields stand still", "statement": "With the global operator and exact quadrature, the gradient of a continuous potential, taken as an electric or a magnetic field, that is level on every wall the field must meet at right angles, and for an electric field level inside conductors, has exactly no rate if the elements can hold it. With every integrator, whatever the steps, the sources and the other fields, a run started with such a field added ends with exactly that field added.", "quantifier": "all valid meshes (simplices of any order, and straight meshes with quadrilaterals and hexahedra), materials, conditions, upwind parameters, potentials, integrators, steps, sources and initial fields", "why_tests_cant": "static fields are as many as potentials, and that they neither drift nor radiate has to hold in runs of any length", "anchors": ["src/components/DGOperatorFactory.h: buildGlobalOperator", "src/mfemExtension/BilinearIntegrators.cpp", "src/evolution/MaxwellEvolution.cpp: Mult, ImplicitSolve"]}
{"id": "C176", "title": "The statistics of a run are those of that run", "statement": "After a case has been built from its file and run, the statistics file of each rank holds exactly two blocks, that of the initialization and that of the run, with the numbers of that rank; ranks the run did not have left no file, whatever earlier runs of the case left, in whatever order the ranks write, and with any number of solvers inside thin layers. Files of other cases, other numbers of ranks and other devices are untouched. The files together give the number of elements of the mesh and their total size, however it is divided. A run stopped at any point leaves in a file either what was there before or blocks of this run only, never a mixture.", "quantifier": "all earlier file systems, cases, numbers of ranks, devices, divisions of the mesh, interleavings of the ranks and points where the run is stopped", "why_tests_cant": "interleavings, earlier contents and crash points are unbounded; tests do not read these files", "anchors": ["src/driver/driver.cpp: prepareExportDirectories, getRunModeTag", "src/solver/Solver.cpp: Solver::Solver, writeSimulationStatistics, calcAverageElementSizeInMesh", "src/solver/SolverOptions.h: setIsSGBCSolver"]}
{"id": "C177", "title": "No mode of the discrete equations grows", "statement": "Write the discrete equations of a case without SGBC as u' = A u, with the operator the solver assembles, and look for fields v exp(l t). Without sources no such mode grows: the real part of l is not positive. Modes with Re l = 0 do not come with solutions that grow like a power of the time. With the centred flux (alpha 0), no conductivity and no absorbing condition every mode has Re l = 0, and modes come in pairs of opposite frequency: the pair of a mode is the mode with the magnetic field reversed, or its complex conjugate. Two such modes of different frequencies are orthogonal for the energy of the fields. The real part of v exp(l t) solves the equations the solver integrates, and the modes are exactly the eigenvectors of the operator matrix.", "quantifier": "all meshes, orders, materials, boundary conditions other than SGBC, fluxes between centred and upwind and beyond, and all complex frequencies and fields", "why_tests_cant": "a spurious growing mode of one mesh shows only after long times, and no finite set of meshes excludes it", "anchors": ["src/components/DGOperatorFactory.h: buildGlobalOperator", "src/evolution/HesthavenEvolutionMethods.cpp", "src/evolution/GlobalEvolution.cpp: Mult"]}
{"id": "C178", "title": "The energy of a run is accounted for step by step", "statement": "In every step of a run with the backward Euler, trapezoidal or midpoint integrator, of any size and with any sources, the energy of any set of elements changes exactly by the step times the work of the sources in it less the power that leaves through its surface, its walls and its losses, taken at the mean of the old and the new fields (at the new fields for backward Euler, which also loses exactly the energy of the change). Summed over a run this gives the last energy from the first. Without sources the heat produced in conductors, plus the energy that is left, never exceeds the energy at the start, however long the run and however large the steps.", "quantifier": "all meshes, materials, boundary conditions other than SGBC, upwind parameters, sets of elements, sources, initial fields, sequences of steps", "why_tests_cant": "the account must close for every step of every run", "anchors": ["src/solver/Solver.cpp: step, assignODESolver", "src/evolution/GlobalEvolution.cpp: Mult, ImplicitSolve", "src/components/DGOperatorFactory.h: buildGlobalOperator"]}
{"id": "C179", "title": "The cross section is computed from the data of the last run", "statement": "After a run with surface probes has come to its end, the post-processor works, for every probe, on exactly what this run recorded: the piece of the surface and the recorded snapshots of every rank, each once, the first rank first. This holds whatever earlier runs of any case on any number of ranks left behind, finished or not, in whatever order the ranks wrote and in whatever order the file system lists the folders. Afterwards the result folders hold exactly one file of each kind per requested direction with the new results, whatever they held before, and the recorded data are unchanged, so that post-processing can be repeated.", "quantifier": "all histories of runs and post-processing, all runs with distinct probe names, all numbers of ranks, all schedules, all listing orders, all requested directions with distinct file names", "why_tests_cant": "Which folders are present depends on the whole history of a directory and on the order in which a file system lists it.", "anchors": ["src/components/RCSSurfaceExporter.cpp: RCSSurfaceExporter, write", "src/components/RCSSurfacePostProcessor.cpp: findRankDirs, readRankData, computeAndWriteResults", "src/solver/ProbesManager.cpp: initRCSSurfaceExporters", "src/driver/rcs_driver.cpp: runRCSPostProcessing"]}
{"id": "C180", "title": "Surface probes work on any number of ranks", "statement": "A case with surface probes that runs on one rank runs on any number of ranks, however the mesh is divided. Proved: it runs whenever every rank has a face of the surface of every probe; otherwise the rank without one throws while the probes are set up and the run does not come to its end.", "quantifier": "all runs, all divisions of the mesh", "why_tests_cant": "Divisions depend on the number of ranks and the partitioner; small surfaces in large meshes are not met by small tests.", "anchors": ["src/components/SubMesher.cpp: NearToFarFieldSubMesher", "src/components/RCSSurfaceExporter.cpp: RCSSurfaceExporter", "src/solver/ProbesManager.cpp: initRCSSurfaceExporters"]}
{"id": "C181", "title": "Cross sections do not depend on the number of ranks", "statement": "Running a case with a surface probe and post-processing it gives the same far field and cross sections, for every frequency, direction and time limit, on any two numbers of ranks and for any division of the surface among them, whatever earlier runs left in the directories, in whatever order the ranks wrote, and however the file system lists the folders.", "quantifier": "all numbers of ranks and divisions, histories of the directories, schedules, listing orders, requests; runs that come to their end; surfaces that do not pass through the origin", "why_tests_cant": "Divisions, schedules and earlier contents of directories are unbounded; a test compares two particular runs.", "anchors": ["src/components/RCSSurfaceExporter.cpp: RCSSurfaceExporter, write", "src/components/RCSSurfacePostProcessor.cpp: computeAndWriteResults", "src/solver/ProbesManager.cpp: updateProbe(RCSSurfaceProbe&, Time)"]}
{"id": "C182", "title": "Cross sections tend to those of the fields at all times", "statement": "As the records of a surface probe become denser in time and the recorded fields tend to the exact ones, the cross sections written by the post-processor tend, for every requested frequency and direction and with or without a time limit, to the cross sections defined with Fourier integrals over the time of the run: neither the step nor the interval between records, nor the shorter last step, leaves a factor or an error behind.", "quantifier": "all surfaces on any number of ranks, all continuous fields, requests, pulses seen at the requested frequencies, steps and intervals between records; dimensions two and three", "why_tests_cant": "Convergence speaks of all step sizes below a bound; a test compares one step size with a tolerance.", "anchors": ["src/components/RCSSurfacePostProcessor.cpp: computeIncidentPowerSpectrum, computeAndWriteResults", "src/solver/ProbesManager.cpp: updateProbe(RCSSurfaceProbe&, Time)", "src/solver/Solver.cpp: run, step"]}
{"id": "C183", "title": "The balance printed is that of the partition used", "statement": "When several ranks are used and some faces are marked for total fields or surface layers, the lines printed by the first rank are true of the partition that is used: number of marked faces, number of groups of elements that had to stay together, least and greatest cost of a rank, average cost, percentage by which the greatest is above the average, and number of marked faces inside every rank, which add up to all of them. Otherwise nothing is printed.", "quantifier": "all meshes, numbers of ranks, starting partitions, marks, iteration orders of the groups", "why_tests_cant": "The numbers are kept up to date while groups move; a test sees one mesh.", "anchors": ["src/driver/driver.cpp: applyPairwiseConstraintsPartitioning, countBoundaryPairsPerRank"]}
{"id": "C184", "title": "The numbers chosen for physical groups do not matter", "statement": "If the physical groups of a mesh are renumbered one to one with positive numbers, in the mesh and in the case file alike, the case is accepted as before, every element keeps its permittivity, permeability and conductivity, every boundary keeps its condition on both kinds of faces, and the total-field, scattered-field, near-to-far-field and face sub-meshes are made of the same elements.", "quantifier": "Every case (materials, boundaries, faces, attributes), every mesh of any size and dimension with any marked faces, and every injective renumbering with positive numbers.", "why_tests_cant": "Tests use one numbering per mesh; that no numbering has an effect needs all of them, and the exceptions (numbers used internally, groups without material) only show for the meshes that hit them.", "anchors": ["src/driver/driver.cpp:assembleAttributeToMaterial", "src/driver/driver.cpp:assembleAttributeToBoundary", "src/components/SubMesher.cpp:setAttributeForTagging", "src/components/Types.h:SubMeshingMarkers", "src/evolution/HesthavenEvolutionMethods.cpp:assembleBoundaryFaceSubMesh", "src/components/Model.cpp:Model"]}
{"id": "C185", "title": "The order of the entries of the case file does not matter", "statement": "Writing the materials, the boundaries or the sources of a case in another order does not change what is simulated: the case is accepted as before, every element has the same permittivity, permeability and conductivity, every boundary group the same condition, thin layers and incident fields are on the same groups, and the initial and incident fields are the same.", "quantifier": "Every case, every permutation of its materials, boundaries and sources, every mesh and every operator.", "why_tests_cant": "The containers filled from the file keep the first entry for a key in some places and the last in others; a test fixes one order, and independence of the order is a statement about all permutations of all cases.", "anchors": ["src/driver/driver.cpp:assembleAttributeToMaterial", "src/driver/driver.cpp:assembleAttributeToBoundary", "src/driver/driver.cpp:postProcessInformation", "src/components/Model.cpp:buildEpsMuPiecewiseVector", "src/solver/SourcesManager.cpp:setInitialFields", "src/solver/SourcesManager.cpp:evalTimeVarFieldDirect", "src/evolution/HesthavenEvolution.cpp:evaluateTFSF"]}
{"id": "C186", "title": "Probes only watch", "statement": "Adding, removing or reordering probes with usable intervals changes neither whether the solver is built, nor its time step and integrator, nor the time and fields after any number of iterations, nor how the run ends; and a probe records the same whatever other probes there are.", "quantifier": "Every case without thin layers, every operator and integrator, all pairs of lists of probes with usable intervals, and every number of iterations.", "why_tests_cant": "A test compares a few probe lists on one case; non-interference is a statement about all pairs of probe lists and all executions.", "anchors": ["src/solver/Solver.cpp:Solver::run", "src/solver/Solver.cpp:Solver::step", "src/solver/ProbesManager.cpp:updateProbes", "src/solver/ProbesManager.cpp:recalculateExportSteps"]}
{"id": "C187", "title": "A longer run repeats the shorter one", "statement": "Running a case with a later final time does not change what happens before the earlier one: the automatic time step and the integrator are the same, and every probe whose interval is given in steps has, up to the earlier final time (less the slack of the final record), exactly the same records, with the same numbers, times and readings.", "quantifier": "Every case, every pair of final times, every integrator, every operator, every list of probes with intervals given in steps, runs that finish.", "why_tests_cant": "A test compares two final times of one case; a dependence of the steps or of the records on the final time can hide in any other.", "anchors": ["src/solver/Solver.cpp: Solver::run, Solver::step, estimateTimeStep", "src/solver/ProbesManager.cpp: updateProbe, recalculateExportSteps"]}
{"id": "C188", "title": "An empty domain stays empty", "statement": "A case without initial field and without incident field, with any thin layers whose own fields are zero, runs to its final time and ends with no field anywhere: none in the domain, none in a layer, and every record of every probe is the reading of a domain without fields, whatever uninitialised memory contained.", "quantifier": "Every operator, every number of thin layers with any inner integrators and surfaces, every list of probes with usable intervals, every final time and time step, every content of uninitialised memory; explicit integrator.", "why_tests_cant": "A test runs a few steps of one empty case; memory that is not initialised or a layer that feeds itself would show in another.", "anchors": ["src/solver/Solver.cpp: Solver::step, Solver::run", "src/evolution/GlobalEvolution.cpp: commitSGBCCheckpoint, Mult, finalizeSGBCStep"]}
{"id": "C189", "title": "A run with thin layers has no hidden memory", "statement": "Two solvers of the same case that hold the same time, fields, thin-layer fields and probes go on alike: after any number of further iterations they have the same fields, layers and records. Old checkpoints, ghost values, wrappers shared between layers, cached factorisations, scratch memory and uninitialised memory make no difference.", "quantifier": "Every case with any number of thin layers, every state the solvers may hold besides the fields, every number of iterations, every content of uninitialised memory; explicit integrator.", "why_tests_cant": "A history property: what an earlier use of an object left behind shows only in the history that leaves it.", "anchors": ["src/solver/Solver.cpp: Solver::step, Solver::run", "src/evolution/GlobalEvolution.cpp: commitSGBCCheckpoint, Mult, finalizeSGBCStep", "src/solver/SolverExtension.cpp: loadState, saveState, solve"]}
{"id": "C190", "title": "A case without thin layers runs as if there were none", "statement": "On one rank, without thin layers and without incident field, a run of the program with its machinery of thin layers (checkpoint, sub-solves, injection, end of the step) does exactly what the explicit integrator applied to dx/dt = A x does: both runs end the same way, at the same time and cycle, with the same fields and the same records of every probe, whatever the scratch memory contained.", "quantifier": "every operator A with columns in range, every initial fields, every step and final time, every number of probes and every content of the memory before the run", "why_tests_cant": "A test compares one case with a stored result; it does not show that the unused machinery is inert for all operators, fields and contents of the memory.", "anchors": ["src/solver/Solver.cpp: Solver::step", "src/evolution/GlobalEvolution.cpp: GlobalEvolution::Mult", "src/evolution/GlobalEvolution.h: hasSGBC"]}
{"id": "C191", "title": "A step takes every thin layer exactly from its beginning to its end", "statement": "A step of the solver of length dt > 0 from the time t ends at t + dt, and every thin layer has then gone exactly once through the sub-steps of that interval, starting from its fields before the step, with the outer fields at its ghost nodes interpolated between those before and those after the step; what the stages of the explicit integrator did to the layer in between leaves no trace. Only when all layers and the outer fields at all of them are below 1e-8 do the layers stay as they are.", "quantifier": "every number of thin layers with any inner integrators, all fields outside and inside, every time and positive step, every content of the memory", "why_tests_cant": "The stages of the explicit integrator advance the layers four times per step with other ghost values; a test sees only the accumulated result of a few cases and cannot tell a trace of a stage from a discretisation error.", "anchors": ["src/solver/Solver.cpp: Solver::step", "src/evolution/GlobalEvolution.cpp: commitSGBCCheckpoint, finalizeSGBCStep, Mult"]}
{"id": "C192", "title": "A run with thin layers comes to its end", "statement": "If every thin layer fits its nodes (both nodes on the rank, room for the ghost nodes, a number of sub-steps that fits an int), the incident field enters at nodes of the rank, the inner integrators end and the step is positive, then a run never reads or writes out of range, never misses a checkpoint and never loops for ever; it ends with the time within 1e-8 steps of the final time and not beyond.", "quantifier": "every number of thin layers, all initial fields, every incident field, every set of probes with usable intervals, every positive step and final time, every content of the memory", "why_tests_cant": "A test runs a few meshes for a few steps; an index out of range or a loop that never ends shows only on the mesh and at the step that meet it.", "anchors": ["src/solver/Solver.cpp: Solver::run, Solver::step", "src/evolution/GlobalEvolution.cpp: Mult, commitSGBCCheckpoint, finalizeSGBCStep, applyTFSFSourceToVector", "src/solver/SolverExtension.cpp: updateFieldsWithGlobalVector, updateFieldsWithInterpolatedGhost"]}
{"id": "C193", "title": "Entries dropped from the operator as negligible do not change the fields", "statement": "When the evolution operator is built, entries of magnitude at most 1e-20 are dropped. Dropping them changes no rate by more than 1e-20 times the sum of the magnitudes of the fields, changes nothing if every entry is zero or larger, and leaves the fields at the end of a run within a factor exp(c T/1e20)-1 of those of the whole operator. It should not matter in which unit of length the mesh is given.", "quantifier": "every problem, every storage of its blocks, every state; every passive problem, step within the stability bound, number of steps and initial fields; every change of the unit of length", "why_tests_cant": "Tests use meshes of unit size, where no entry is near the threshold; that the accumulated effect over any number of steps stays bounded, and that a change of unit can drop the whole operator, are statements about all problems and units.", "anchors": ["src/components/DGOperatorFactory.h: buildGlobalOperator, Threshold", "src/solver/Solver.cpp"]}
{"id": "C194", "title": "The number of ranks does not change which entries of the operator are dropped", "statement": "When a run is split over ranks, each rank builds its own rows of the evolution operator and drops the entries of magnitude at most 1e-20. The rows of the ranks applied to own and received values give what the rows of the operator built on one rank, with its small entries dropped, give for the whole fields. So a run of explicit steps on the ranks gives the fields of the run on one rank.", "quantifier": "every problem without interface conditions cut by the partition, every split over any number of ranks in which a rank has one number for each degree of freedom, every storage of the blocks, every state; every sequence of steps and every contribution of sources", "why_tests_cant": "Whether a sum of contributions falls below the threshold depends on all the blocks that are merged into one entry; a test compares results of a few partitions up to a tolerance that hides entries of that size.", "anchors": ["src/components/DGOperatorFactory.h: buildGlobalOperator, Threshold", "src/evolution/GlobalEvolution.cpp: GlobalEvolution::Mult"]}
