# Formal model of OPM/IFEM-Elasticity — design

## 1. What is modelled, and how

The repository is a set of *integrands*, *materials*, *drivers* and *simulator
plug-ins* on top of the IFEM library.  IFEM itself is not part of /repo.  The
model is a Lean 4 transcription of the repository code, function by function.
Every definition carries the file and lines it transcribes.

| directory | contents |
|---|---|
| `lean/Verif/Basic.lean` | small shared vocabulary (bounds-checked access, Voigt sums) |
| `lean/Verif/Model/*.lean` | transcription of the C++ (one file per class or class family) |
| `lean/Verif/Spec/*.lean` | independent specifications (textbook formulas, abstract state machines) |
| `lean/Verif/Props/*.lean` | the property theorems, with a satisfiability `example` beside each |

Conventions

* **Numbers.** `double`/`Real` becomes an arbitrary field `K` (ordered when the
  code compares), or `ℝ` where the code calls `sqrt`, `exp`, `log`, `pow`, `sin`,
  `cos`.  Rounding, overflow and NaN are *not* modelled.
* **Undefined behaviour is an outcome.** Out-of-range indexing, use of a null
  pointer and a wrong `static_cast` are modelled as a distinct result
  (`none`/`Except.error`/an inductive `ub` outcome), never as a default value.
* **Division.** Lean's `x/0 = 0` is never used to make a statement true: theorems
  on code that divides either carry the hypothesis that the divisor is non-zero
  and prove that the code's own guards give it, or model the failure explicitly.
* **Mutable state** becomes an explicit record passed through functions;
  histories are lists of operations, and history properties are proved by
  induction over that list.
* **Loops** over nodes and integration points become finite sums/folds over an
  arbitrary index type or list, with no bound on their length.
* **When the code violates a property**, the model keeps the code as it is. The
  violation is a theorem with a concrete witness (`..._violated`), and the part that
  holds is proved as `..._partial` with the missing case stated.

## 2. Plan per property

| id | what is modelled | how it is proved |
|---|---|---|
| C01 | `LinIsotropic::evaluate`, all branches | matrix identity by field arithmetic, per plane state |
| C02 | same | sum-of-squares decomposition of the quadratic form |
| C03 | same, result as `Option` | case analysis over the real line |
| C04 | both `evaluate` overloads | refinement to the tensor Hooke law in `Spec` |
| C05 | `IsotropicTextureMat::findMaterial` over a list-of-rows image and an association list | refinement to `List.find?`; bounds proof |
| C06 | `Elasticity::formBmatrix` index arithmetic over any node count | `Finset.sum` identities against a displacement gradient spec |
| C07 | accumulation of `BᵀCB·w` over a list of points | algebra + induction over points |
| C08 | `formMassMatrix` | algebra + induction over points |
| C09 | `formBodyForce`, `evalBou` with `sumLoad` | induction over points, partition of unity; axisymmetric counterexample |
| C10 | `formKG` | linearity; axisymmetric counterexample (branch `kgrr > 0`) |
| C11 | `ElasticBase::setMode`, `LinearElasticity::setMode`, `Elasticity::getLocalIntegral` as integer tables | exhaustive symbolic case analysis on mode and parameters |
| C12 | the overrides in the F-bar, mixed, beam and bar classes | same; counterexamples where a slot is missing |
| C13 | `setMode` as a state transformer | equality of states for all prior states; induction over mode sequences |
| C14 | `ElasticityNorm` counter arithmetic and name tables | induction over groups; counterexample for the mis-named slot |
| C15 | `KirchhoffLovePlateNorm` counter arithmetic | induction over projections; counterexample for version > 1 |
| C16 | `evalSol2` max tracking | fold invariant |
| C17 | arc-length algebra and the corrector loop | algebra; loop measure |
| C18 | `NonlinearDriver::solveProblem` as a transition system with an oracle for step outcomes | invariant by induction; counterexample for the stale time stamp |
| C19 | `SIMLinElModal` swap protocol | state-machine invariant |
| C20 | moduli conversions | field arithmetic |
| C21 | `PlasticMaterial` history buffers | invariant by induction; counterexample for restart |
| C22 | `yfunc` | `HasDerivAt`; counterexamples |
| C23 | `energyIntegral` | telescoping by induction |
| C24 | `volumetricModuli` | `HasDerivAt`; counterexample for law 4 |
| C25 | push-forward matrices | tensor spec vs. Voigt matrix, entrywise `ring` |
| C26 | `stdNeoHooke`, `modNeoHooke` | entrywise algebra |
| C27 | TL `kinematics` | derivative of a quadratic map; axisymmetric counterexample |
| C28 | UL `evalBou` | Nanson's formula by cofactor algebra |
| C29 | `FbarElmData::init` | number theory on rounding of roots |
| C30 | F-bar scaling | determinant of a scaled matrix |
| C31 | `getAmat2D/Ax/3D` | entrywise against an index-map spec; counterexample for one 3D entry |
| C32 | mixed Newton matrix | injectivity/surjectivity of the index map |
| C33 | MX volume averaging | sums, projection orthogonality |
| C34 | mixed tangent projection | matrix algebra |
| C35 | mortar penalty | sums; state machine for the active set |
| C36 | augmented Lagrangian | case analysis |
| C37 | rigid sphere/cylinder/plane gap | `HasDerivAt` of the norm |
| C38 | plane weights | algebra; counterexample in 3D |
| C39 | multiplier numbering | fold invariant |
| C40 | beam stiffness | 12×12 algebra, sum of squares |
| C41 | eccentricity transformation | equality with an explicit congruence |
| C42 | beam, bar mass | algebra; counterexample for the bar |
| C43 | `BeamProperty::eval` | equality; counterexample for the inertia |
| C44 | bar force and tangent | `HasDerivAt`; counterexample for split matrices |
| C45 | cable variations | derivatives; counterexample for the second variation |
| C46 | cable end moment | algebra; counterexample at ξ=+1 |
| C47 | plate stiffness versions | algebra |
| C48 | shell B-matrices | algebra over cross products |
| C49 | nonlinear shell variations | derivatives; counterexample for recovery |
| C50 | surface stresses | algebra |
| C51, C52 | analytical solutions | derivatives + equilibrium |
| C53 | local coordinate systems | orthogonality |
| C54 | `expandNodalVec` | fold over an array; counterexample |
| C55 | option dispatch | case analysis; counterexample |
| C56 | `parseCouplings`, `addGeneralCouplings`, `parseRigid`, `addRigidMPCs` | map invariants by induction; counterexamples |
| C57 | knot refinement | set construction, strict order |
| C58 | analytical BC codes | induction over the property list |
| C59 | border mask | case analysis over intervals |
| C60 | boundary reaction indexing | counterexample + partial |
| C61 | beam container type | state machine; counterexample |
| C62 | formulation options | induction over option sequence |
| C63 | material evaluation with history | induction over the earlier evaluations |
| C64 | `getStiffness`, `getPlateStiffness` against `evaluate` | algebra; counterexample with a stiffness field |
| C65 | texture material ranges and ownership | state of the heap objects; counterexamples |
| C66 | load gradient vector of the total and updated Lagrangian elements | explicit formula per component; counterexample |
| C67 | internal forces of both Lagrangian formulations | algebra over the deformation gradient; axisymmetric counterexample |
| C68 | mass and body load in deformed configuration | volume ratio; counterexample |
| C69 | F-bar sampling polynomials | interpolation identities; four-point counterexample |
| C70 | mixed pressure | variation of the averaged volume change |
| C71 | contact under translation | invariance of the gap; counterexample for the stiffness |
| C72 | beam geometric stiffness | explicit energy |
| C73 | bending stiffness and rotary inertia | comparison of coefficients; counterexample |
| C74 | lumped beam mass | sums over the diagonal |
| C75 | cable local axes | orthonormality per branch; degenerate counterexample |
| C76 | cable section forces | reparametrisation; counterexample |
| C77 | plate shear forces | derivatives of the moments; counterexamples |
| C78 | plate and shell loads, sums and mass | sums over nodes |
| C79 | plate field names and number | case analysis; counterexample |
| C80, C81 | shell frames, local systems | cross products, orthogonal invariants; counterexample |
| C82, C83 | shell norms, edge tractions | algebra at an integration point |
| C84 | thermal pipe | derivatives; counterexample |
| C85 | boundary reference point | fold; counterexample for a second pass |
| C86, C87, C88 | property maps of plates and shells | induction over property lists; histories of readings; counterexamples |
| C89 | point loads of three simulators | induction over the loads; energy, sums and derivative; counterexamples |
| C90 | Fortran stiffness routines | expansion of the sums, any nodes; counterexamples |
| C91 | superelement map, material activation, block lists | induction over superelements and fields; counterexamples |
| C92 | dynamics driver loop over a list of step outcomes; stop time selection | induction over the steps; counterexamples |
| C93 | C strings in buffers, strtok/strcat, find_last_of/replace, free restart names | list lemmas, pigeonhole; general counterexamples |
| C94 | driver selection, status codes as stages, event list of the coupled solver | case analysis, induction over simulators; counterexamples |
| C95 | material input of finite deformation problems as functions of element lists and attribute maps | list induction, explicit parameter vectors; counterexamples |
| C96 | lists of values and names of secondary fields as functions of the options | list positions, case analysis; counterexamples |
| C97 | temperature fields, thermal strain, recovered stress, load vector over lists of integration points | Hooke law as specification, exchange of sums, induction over points; difference formulas for violations |
| C98 | traction pointers of the integrand over sequences of boundary assemblies; input loops over materials and pressures as list recursions | induction over boundaries and lines, explicit characterisation; counterexamples |
| C99 | cross section formulas over the reals, tables as lists of characters with the tokens of strtok, decision logic of the material tags | comparison with integrals over the section and with the formulas of Bredt and Roark, round trip of well-formed tables by induction, case analysis; counterexamples |
| C100 | tag selection, collection of retained nodes and recovery state as recursions over tags, items and calls; analytical solutions as data | induction over tags, items and sections; case analysis; counterexamples |
| C101 | restart file as map from names to data, save and restore over the list of solution vectors | round trip by induction over the vectors; arithmetic of the save increment; counterexamples |
| C102 | norms as sums over integration points of any number, order of the norm components and of the labels | induction over the points, linear identities per tensor shape; matrix algebra for the internal modes; finite tables; counterexamples |
| C103 | loop over the boundary properties with maps of functions and ownership | induction over the properties and over histories of readings; counterexample for all inputs with two codes |
| C104 | refinement as function of the results of the library, options, events of modes and evaluations | case analysis, induction over histories; counterexamples |
| C105 | Parsing of the contact tag (SIMContact.C, RigidBody.C) as a step function on the list of child tags; patches as lists of global nodes | Induction over the items of the slave set and over the tags; counter-examples for the order of tags, two slave sets, spheres in the plane and the radius |
| C106 | Material, load and pressure input of C1 beams (tags and text) and of plates (text), region by region initialisation | Invariant relating the simulator to the list of definitions, kept by every step; counter-examples |
| C107 | Definition of analytical plate solutions from tags and text (SIMLinElKL.C) | Case analysis of the parameters; comparison of both formats; counter-examples |
| C108 | Beam element assembly: stiffness, internal forces, axial force, geometric stiffness, mass, gravitation, transformation and eccentricity, norms (ElasticBeam.C) | Virtual work of rotated and eccentric matrices by bilinearity; cases of the modes; induction over the points; counter-examples |
| C109 | Print-out of norms and error estimates, positions of volume and section forces, choice of the evaluated norms, dual error estimate (SIMElasticity.C, main_LinEl.C, SIMKLShell.C) | Induction over the section forces; case analysis with the layouts of C14 and C15; Cauchy-Schwarz; counter-examples |
| C110 | Command line loops of the nonlinear and shell program, derived discretization, precision, result fields and file names (main_NonLinEl.C, main_ShellEl.C) | Specification of command lines as lists of options; induction over them for both passes of the loop; last-value lemma; counter-examples for file names |
| C111 | Assembly of the mortar matrices over all elements, nodal gaps, element residuals and their assembly, status print-out (MortarContact.C) | Bilinear forms of the assembled matrices by induction over elements, then sums exchanged; counter-example for the node numbers |
| C112 | `evalInt` and `kinematics` of the total and the updated Lagrangian integrands with the loop over integration points, material as a function of F and E | derivative along a line by induction over the points (HasDerivAt of the virtual work, product rule, engineering notation); push-forward identities; witnesses for the violations |
| C113 | `reducedInt` and `evalInt` of the F-bar integrand with the loops over sampling and integration points, material as a function of the modified gradient | derivative along a line: cofactors and determinant, power of the volume ratio, rate of the Cauchy stresses, combined with the matrices of C31; sums over sampling points by induction; witnesses for the violations |
| C114 | `evalInt` and `finalizeElement` of the mixed element with internal pressure modes, and the accumulation of the material stiffness in Fortran, on top of the condensation of C33 and the projected tangent of C34 | the fit by the pressure modes is a self-adjoint projection; derivative of volume ratio, fitted volume ratio, scaled gradient and stresses along a line; the sum of the rates is the bilinear form of the matrix by the self-adjointness; witness with compressive hoop stress |
| C115 | `evalInt` of the three-field mixed element, its five matrix blocks and three residuals, the accumulation of the material stiffness in Fortran and the coupled layout of C32 | bilinear form and virtual work of the blocks of each integration point; induction over the points; sum over the coupled layout; derivative of the scaled gradient, stresses and volume ratio along a line in all three fields, matched with the projected tangent of C34; witnesses with compressive hoop stress and without strains |
| C116 | `ElasticityForce` (traction, resultants, torques, nodal forces), `calcBouForces`, print-out of sections | sums over points by induction, entry-wise identities in the symmetric tensor layout; comparison with the load loop of `evalBou`; witnesses for axisymmetry and strain output |
| C117 | norms of the mixed, three-field and F-bar elements: volume changes, modified gradients, energies, volumes, stress norms | explicit sums over the integration points; energy rate against the virtual work of C113–C115; concrete F-bar square where they differ |
| C118 | local evaluation of the plastic material: trial state, yield check, return mapping with its local linear systems, history update, stress | scalar Newton iteration along the radial direction, invariant by induction over the iterations (concavity); closed form for linear hardening; uniqueness of principal values and permutation invariance for objectivity, induction over load histories; witness for the axes of the back stress |
| C119 | material matrix of the plastic material: principal tangent, transformation from the principal axes, components kept | curves of principal values and axes; the code's axes are compared through the equal-value classes; chain rule through the radial return; closed form of the local solve |
| C120 | containers of integration and result points, reported quantities | induction over call sequences, comparison with a point on its own; counterexample with the return mapping for two sets of points |
| C121 | stress recovery of the large deformation elements: operation codes of the materials, kinematics, values of the tensorial element | virtual work of the element forces (from C112, C113) compared with the work of the recovered stresses; stretched triangle and twisted square as counterexamples |
| C122 | total and updated Lagrangian elements and F-bar elements as in C112, C113 | nodal forces as work of a first Piola-Kirchhoff stress, whose symmetry P F^t = F P^t gives the moment balance; rotations of the deformation gradient |
| C123 | Model/FDEnergy.lean: norm integration of total and updated Lagrangian elements, strain energies of the linear and neo-Hookean materials | energy of the element list as a sum, its derivative along a line of displacements against the force vector from the element model; counterexample for total Lagrangian elements |
| C124 | Model/MaxPrint.lean: request, allocation, evaluations of a step and report of extreme values | run of the events of a step on the table of extreme values (C16, C104), lines as a list; counterexamples as negations |
| C125 | Model/Dual.lean: extraction functions, element vectors, dual load and norm slots of the functions | fold over the functions, induction over solution vectors and integration points; adjoint relation from the symmetry of the stiffness; counterexamples as negations |
| C126 | Model/Buffers.lean: buffers of the element matrices, restoring, integration, storing and histories of an integrand | invariant by induction over histories: buffers hold the integrals of the stored elements; refinement to the history without buffers; counterexamples as negations |
| C127 | Mixed elements with pressure modes and with three fields (Model/MixedElem.lean, Model/TripleElem.lean). | The virtual work of C114 and C115 is brought to first Piola-Kirchhoff form; balance from the symmetry of the mixed stresses, turning from objectivity in space with plane rotations extended to space; rigid motion as a turned initial state. |
| C128 | All solid element formulations (Model/Continuum.lean, Model/FDTangent.lean, Model/FbarElem.lean, Model/MixedElem.lean, Model/TripleElem.lean). | A uniform displacement gradient is reproduced in every integration point of an isoparametric element; the fitted and sampled volume ratios equal the constant one; the virtual work of each formulation is evaluated for unit displacements of one node. |
| C129 | `Model/Shell.lean`, `Model/Plate.lean`, `Model/Cable.lean`, `Model/Bar.lean` | virtual work of translations and infinitesimal rotations vanishes term by term; strains and curvatures are unchanged and their variations turn under finite rotations |
| C130 | `Verif.BeamModel`: the children of `properties` and `beam` as lists, the reading as a fold with undefined behaviour and exceptions as outcomes | specification by the last given element (`filterMap` and `getLast?`), induction over the list of children; explicit values of the evaluated section |
| C131 | `Verif.SolidInput`: the context element as a list of children, the reading as a fold over the state of the model including the static plane strain option; `LinIsotropic::parse` with the child its function parser captures | induction over the list of children; specification by the option given last; explicit values of the properties |
| C132 | Assembly of element matrices over all elements and nodes, equations of the free degrees of freedom, support forces (Model/Structure.lean); integration points from C06, C01, C09, C122 | Virtual work by exchanging sums, rigid motions as test displacements, symmetry and definiteness of Hooke's law, injective linear maps of the free displacements are surjective |
| C133 | members with connectivity and the element matrices and vectors of C108, assembled as in C132 | virtual work from the assembly; rigid motions of the frame are rigid motions of the member ends (C40), so support forces balance loads; positive energy and connectivity give existence and uniqueness; different eccentricities at the ends refuted |
| C134 | element stiffness and mass matrices in one loop over the integration points, assembled as in C132; modes as solutions of the eigenvalue problem | energies from the element forms of C08 and C132; symmetric forms give orthogonality and Rayleigh quotients, rigid motions give momenta; existence of all modes from the spectral theorem of Mathlib |
| C135 | the modal driver: prediction, convergence check and correction of a step, quasi-static runs, status of the simulation and of time histories of modes | orthonormal modes reduce the virtual work of the response to the work of the loads in each mode; induction over steps; case analysis over the outcomes |
| C136 | element matrices of material and geometric stiffness for the displacements of the static solution, assembled as in C132 | forms from C08, C10 and C132; symmetric forms give energies and orthogonality; stability from the simultaneous diagonalisation of both forms by the spectral theorem |
| C137 | assembly of plate elements (three formulations) with loads and mass, one deflection per node | virtual work from the element entries, rigid deflections have no curvature, definiteness of the energy density, general lemmas of C132 and C134 |
| C138 | assembly of linear shell elements with loads and mass, three displacements per node | virtual work from C48, rigid motions have no strains (C48), definiteness of the energy, general lemmas of C132 and C134; witness for rejected materials |
| C139 | element matrices of beams in the modes of vibration and buckling, assembled | forms of the finished element matrices (C108), C40, C42, C72; complete modes and stability by the general lemmas of C134 and C136; failure for eccentric members |
| C140 | Assembly of the element matrices and vectors of total Lagrangian, updated Lagrangian and F-bar elements, residual, iteration and converged states (Model/FDStatic.lean) | Balance and objectivity of the elements summed over the assembly; derivative of the assembled forces from those of the elements; stationarity from the derivative of the energy |
| C141 | Reading of point loads of plates and shells from tags and text, up to the load vector (Model/ShellLoads.lean, with Model/PointLoads.lean) | The list of loads is that of the tags with a value; C89 for the assembly; counterexamples for the directions and for text |
| C142 | assembly of the forces and tangents of the nonlinear shell element over all elements and points, the residual, one iteration, and converged states | the balance, turning and derivative theorems of one point (C49, C129), summed over points and elements; chain rule for the move of one node |
| C143 | the bars of a truss in a static analysis with both stiffness parts and both force parts in one matrix and vector, assembly, residual, iterations and converged states | explicit formula for the residual, then sums over bars; derivatives from C44 along any change of the displacements |
| C144 | integrand of the cable assembled over elements, residual, tangent matrix, iterations | balance and turning per point from C129, energy from C45, sums over points and elements; counterexample for the tangent from C45 |
| C145 | forces and mass matrices of the bars in a dynamic analysis, assembly, residual of the equations of motion | mass matrix shown to be diagonal, balance and derivative of the energy from C143; counterexample for consistent masses |
| C146 | forces and mass matrix of the cable integrand in a dynamic analysis, assembly, residual of the equations of motion | balance from C144, inertia as a sum over points; the energy is differentiable in the derivatives of the position, so that its derivative along any velocity follows from the partial derivatives of C45 |
| C147 | mass matrix, internal forces, weight and pressures (along the deformed normal) of the shell integrand in a dynamic analysis with large displacements, assembly, residual of the equations of motion | balance from C142 with weight and pressures as nodal loads, inertia as a sum over points; the strain energy is differentiable in base vectors and second derivatives, so that its derivative along any velocity follows from the partial derivatives of C49 |
| C148 | mass matrix, internal and body forces of the total Lagrangian integrand in a dynamic analysis, assembly, residual of the equations of motion | balance from C140 with the body forces as nodal loads, inertia as a sum over points; entries of the element matrices from the loops over points and nodes by induction; energy from the potential of the internal forces (C123); histories by differentiation in time |
<!-- rows -->

## 3. Trusted base

* Lean 4.33.0's kernel, and Mathlib as the library of definitions.
* Axioms: at most `propext`, `Classical.choice`, `Quot.sound`.
* The transcription of C++ into Lean by hand (checked by review against the cited lines).
* The behaviour of the IFEM library as stated in the comments of each model file.
* Checked by `vcheck`: every theorem named in MANIFEST.json depends on no other axiom than the three above.

What the model leaves out everywhere: floating point rounding, overflow and not-a-number (except where a theorem says so), output to the
terminal and to files other than the names and numbers written, memory exhaustion, parallel execution (OpenMP, MPI), and the inner workings
of IFEM (spline evaluation, assembly, equation solvers, XML reading), which enter as stated in the comments of each model file.

### Code covered by the model

Generated from the citations in `lean/Verif/Model/*.lean`. Lines outside the cited ranges (constructors, printing, option echo and code not yet
reached) are not modelled.

<!-- coverage begin -->
| file in /repo | lines | lines cited by the model | model file |
|---|---|---|---|
| Beam/BeamProperty.C | 408 | 24-39, 65-241, 246-332, 336-392 | Beam, BeamInput, BeamModel |
| Beam/BeamProperty.h | 119 | 81-117 | Beam, BeamInput |
| Beam/ElasticBar.C | 366 | 49-108, 117-322, 345-364 | Bar, Beam, Modes, TrussDynamic, TrussStatic |
| Beam/ElasticBar.h | 101 | 93-98 | CableStatic, TrussStatic |
| Beam/ElasticBeam.C | 818 | 83-122, 133-145, 197-283, 291-300, 306-350, 365-406, 414-454, 462-751, 761-764, 793-818 | Beam, BeamElem, BeamInput, BeamModel, Frame, FrameModes, Modes |
| Beam/ElasticBeam.h | 201 | 124-140 | BeamElem, Modes |
| Beam/ElasticCable.C | 686 | 39-53, 60-606, 612-668 | Cable, CableDynamic, CableStatic, Modes |
| Beam/ElasticCable.h | 110 | whole file or declarations | CableStatic |
| Beam/SIMElastic1D.C | 71 | 29-71 | PointLoads |
| Beam/SIMElasticBar.C | 524 | 31-39, 60-103, 133-159, 168-303, 311-370, 378-381, 392-400, 446-459, 485-516 | BeamInput, BeamModel, PointLoads, TrussDynamic, TrussStatic |
| Beam/SIMElasticBar.h | 119 | 96-106 | BeamModel, PointLoads |
| Elasticity/ArcLengthDriver.C | 283 | 23-24, 92-114, 129-178, 208-283 | Drivers, Programs |
| Elasticity/ArcLengthDriver.h | 74 | 35 | Programs |
| Elasticity/ElasticBase.C | 273 | 40-160, 168-174, 191-209, 242-265 | CableDynamic, CableStatic, FrameModes, Modes, PointLoads, TrussDynamic, TrussStatic |
| Elasticity/ElasticBase.h | 140 | whole file or declarations | CableStatic, Modes |
| Elasticity/Elasticity.C | 1438 | 41-63, 92, 105-106, 147-242, 269-306, 366-446, 464-699, 722-890, 908-924, 932-1002, 1011-1062, 1068-1075, 1090-1350, 1354-1437 | BouForce, Continuum, Dual, FDDynamic, FDEnergy, FDStress, FDTangent, MaxPrint, MixedElem, Modes, NormPrint, NormUL, Norms, PlasticResults, SolidFields, SolidInput, SolidLoads, Thermal, Vibration |
| Elasticity/Elasticity.h | 502 | 66-68, 72, 362-369, 453-500 | BouForce, Dual, SolidLoads |
| Elasticity/ElasticityArgs.C | 53 | 19-33 | MainLinEl |
| Elasticity/ElasticityArgs.h | 41 | 22-41 | MainLinEl |
| Elasticity/IsotropicTextureMat.C | 111 | 35-40, 44-54, 69-101 | LinIsotropic, Texture |
| Elasticity/KirchhoffLove.C | 455 | 29, 72-125, 178-184, 211-371, 420-446 | KLProps, Modes, NLShellDynamic, Plate, PlateStatic, PointLoads, ShellLoads, ShellStatic, SolidLoads |
| Elasticity/KirchhoffLove.h | 240 | 66, 85-87, 212-240 | KLProps, SolidLoads, ThinInput |
| Elasticity/LinIsotropic.C | 398 | 25-37, 64-133, 208-398 | FDEnergy, FDStress, LinIsotropic, SolidInput, Texture, Thermal |
| Elasticity/LinIsotropic.h | 141 | 119-140 | LinIsotropic, SolidInput, Thermal |
| Elasticity/LinearElasticity.C | 409 | 44-110, 120-159, 181-278, 286-350, 355, 362-409 | Buckling, Buffers, Continuum, Dual, Modes, NLDriver, Structure, Thermal, Vibration |
| Elasticity/LinearElasticity.h | 145 | 133-134, 139-140 | Buffers, Thermal |
| Elasticity/LocalSystems.C | 187 | 29-33, 41-51, 60-66, 92-136, 150-187 | LocalSystems, SolidInput |
| Elasticity/MaterialBase.h | 143 | 51-53, 67, 98-102 | FDInput, FDStress, Thermal |
| Elasticity/NewmarkDriver.h | 230 | 103-187 | Newmark, Programs |
| Elasticity/NonlinearDriver.C | 506 | 33-42, 81-107, 115-133, 174-206, 237-261, 274-440, 459-506 | CableDynamic, CableStatic, Drivers, FDStatic, MaxPrint, NLDriver, NLShellDynamic, NLShellStatic, NormUL, Programs, Rigid, TrussStatic |
| Elasticity/SIMElasticity.C | 907 | 39-78, 86-97, 103, 126-134, 180-226, 235-246, 255-290, 305-308, 319-364, 396-429, 486-512, 529-609, 621-644, 667-674, 685-768, 776-800, 809-818, 833-849 | AnaSolid, BouForce, Boundary, Dual, LinDriver, MaxPrint, NormPrint, Rigid, SolidInput, SolidLoads |
| Elasticity/SIMElasticityWrap.C | 120 | 53-90, 111-116 | LinDriver |
| Elasticity/SIMRigid.C | 231 | 27-161, 168-198 | Rigid |
| Elasticity/SIMRigid.h | 63 | 58-63 | Rigid |
| FiniteDeformation/LinearMaterial.C | 120 | 26-92 | FDEnergy, FDStress, NeoHooke |
| FiniteDeformation/MixedTanMat.C | 115 | 32-115 | Mixed |
| FiniteDeformation/MortarContact.C | 751 | 30-43, 61-111, 121-131, 147-183, 203-213, 222-234, 239-337, 348-402, 417-444, 449-466, 492-555, 584-606, 630-650, 674-690, 724-751 | Contact, ContactGlobal |
| FiniteDeformation/NLoptions.C | 59 | 24-59 | NLargs |
| FiniteDeformation/NLoptions.h | 53 | 22-30 | FDInput, NLargs |
| FiniteDeformation/NeoHookeMaterial.C | 370 | 62-82, 93-177, 194-226, 238-310, 324-370 | FDEnergy, NeoHooke, Plastic, SolidFields |
| FiniteDeformation/NeoHookeMaterial.h | 108 | 44, 68 | FDInput, SolidFields |
| FiniteDeformation/NonlinearElasticity.C | 247 | 73-83, 88-237 | FDStress, FtnStiff, Modes |
| FiniteDeformation/NonlinearElasticityFbar.C | 770 | 30-37, 54-70, 123-168, 187-261, 266-286, 294-317, 325-358, 366-669, 708-761 | FDStatic, Fbar, FbarElem, Modes, NormMixed, NormUL |
| FiniteDeformation/NonlinearElasticityTL.C | 321 | 48-150, 168-208, 234-321 | FDDynamic, FDStatic, FDStress, FDTangent, FiniteDef, Modes, NLDriver |
| FiniteDeformation/NonlinearElasticityUL.C | 473 | 50-63, 83-200, 219-264, 288-330, 354-416, 440-471 | FDEnergy, FDStatic, FDStress, FDTangent, FiniteDef, Modes, NLDriver, NormUL, Plastic, PlasticResults |
| FiniteDeformation/NonlinearElasticityULMX.C | 750 | 46-58, 158-196, 221-301, 311-574, 615-748 | Fbar, Mixed, MixedElem, Modes, NormMixed, NormUL |
| FiniteDeformation/NonlinearElasticityULMixed.C | 574 | 46-63, 67-70, 92-139, 156-186, 207-237, 245-468, 526-566 | Mixed, Modes, NormMixed, NormUL, TripleElem |
| FiniteDeformation/PlasticMaterial.C | 936 | 22-54, 73-936 | FDStress, Plastic, PlasticResults, Plate, ReturnMap, SolidFields |
| FiniteDeformation/PlasticMaterial.h | 214 | 45-134, 146-148, 193, 201-211 | FDInput, Plastic, PlasticResults, ReturnMap, SolidFields |
| FiniteDeformation/RigidBody.C | 336 | 67-88, 115-155, 177-246, 269-327 | Contact, ContactInput |
| FiniteDeformation/RigidBody.h | 220 | 104, 186 | ContactInput |
| FiniteDeformation/SIMContact.C | 386 | 53-64, 83-116, 123-158, 162-222, 236-275, 316-325, 365-372, 382 | Contact, ContactInput |
| FiniteDeformation/SIMFiniteDefEl.C | 417 | 37-41, 46-124, 128-168, 180-245, 277-298 | FDInput, NLargs |
| FiniteDeformation/accKM.f | 144 | 14-144 | FtnStiff, TripleElem |
| FiniteDeformation/accKMx.f | 163 | 14-163 | FtnStiff, MixedElem |
| FiniteDeformation/stiff_TL.f | 221 | 14-221 | FtnStiff |
| Linear/AnalyticSolutions.C | 507 | 27-45, 72-135, 147-178, 191-230, 238-241, 253-329, 333-389, 397-441, 462-507 | Analytic |
| Linear/AnalyticSolutions.h | 324 | 238, 300-318 | Analytic |
| Linear/DynamicDriver.C | 102 | 22-99 | FileNames, Newmark, Programs |
| Linear/KirchhoffLovePlate.C | 887 | 74-250, 258-327, 334-364, 376-887 | LineLoad, Modes, NormPrint, Norms, Plate, PlateStatic |
| Linear/ModalDriver.C | 230 | 33-39, 107-129, 138-230 | Drivers, FileNames, Modal, Newmark, Programs |
| Linear/MultiLoadCaseDriver.C | 78 | 22-78 | Newmark, Programs |
| Linear/SIMLinEl.h | 397 | 71-117, 128-140, 145-151, 188-254, 264-306, 334-356 | LinDriver, Structure |
| Linear/SIMLinEl2D.C | 159 | 19-159 | LinDriver |
| Linear/SIMLinEl3D.C | 116 | 19-116 | LinDriver |
| Linear/SIMLinElBeamC1.C | 402 | 74-110, 117-127, 178-226, 258-321, 342-374, 391-402 | Knots, NormPrint, PointLoads, ThinInput |
| Linear/SIMLinElBeamC1.h | 98 | 81-96 | PointLoads, ThinInput |
| Linear/SIMLinElKL.C | 226 | 43-70, 86-226 | AnaBC, NormPrint, ThinInput |
| Linear/SIMLinElModal.h | 155 | 50-97 | Drivers, Modal |
| Linear/SIMLinElSup.C | 288 | 34-59, 64-69, 118-125, 132-144, 166-210, 241-277 | Supel |
| Linear/SIMLinKLModal.C | 106 | 18-50 | Drivers |
| Linear/SIMmcStatic.C | 112 | 21-112 | Programs |
| NLargs.C | 187 | 24-187 | NLargs |
| NLargs.h | 55 | 21-22, 44-50 | NLargs, Programs |
| Shell/KirchhoffLoveShell.C | 555 | 38-149, 157-164, 170-196, 218-234, 248-342, 388-406, 420-487, 516-552 | Modes, Shell, ShellStatic |
| Shell/NLKirchhoffLoveShell.C | 317 | 22-30, 36-317 | Modes, NLShellDynamic, NLShellStatic, Shell |
| Shell/SIMKLShell.C | 671 | 51-62, 80-110, 128-147, 151-172, 179-189, 224-288, 303-321, 357-410, 428-524, 529-563, 571-594, 600-671 | AnaBC, KLProps, LineLoad, NormPrint, PointLoads, ShellLoads, SolidLoads, ThinInput |
| Shell/SIMKLShell.h | 199 | 38-47, 54-61, 137-142, 146-151 | KLProps, LineLoad, PointLoads, ShellLoads |
| main_LinEl.C | 1032 | 110-137, 141-314, 332-337, 341-342, 385-431, 444-888, 896-1018 | BouForce, Buckling, FileNames, Frame, FrameModes, MainLinEl, MaxPrint, NormPrint, PlateStatic, Programs, ShellStatic, Structure, Vibration |
| main_NonLinEl.C | 439 | 44-215, 269-275, 279-325, 345-348, 359-362, 369-438 | FileNames, MaxPrint, NLargs, Newmark, Options, Programs |
| main_ShellEl.C | 200 | 31-104, 134-139, 143-162, 174-175, 187-200 | FileNames, Options, Programs |

Files of /repo without a model:

Beam/SIMElastic1D.h, Beam/SIMLinElBeam.h, Elasticity/ElasticityUtils.h, Elasticity/IsotropicTextureMat.h, Elasticity/NonlinearDriver.h, Elasticity/SIMElasticity.h, Elasticity/SIMElasticityWrap.h, FiniteDeformation/LinearMaterial.h, FiniteDeformation/MixedTanMat.h, FiniteDeformation/MortarContact.h, FiniteDeformation/NonlinearElasticity.h, FiniteDeformation/NonlinearElasticityFbar.h, FiniteDeformation/NonlinearElasticityTL.h, FiniteDeformation/NonlinearElasticityUL.h, FiniteDeformation/NonlinearElasticityULMX.h, FiniteDeformation/NonlinearElasticityULMixed.h, FiniteDeformation/SIMContact.h, FiniteDeformation/SIMFiniteDefEl.h, FiniteDeformation/int_debug.h, Linear/DynamicSim.h, Linear/KirchhoffLovePlate.h, Linear/ModalDriver.h, Linear/MultiLoadCaseSim.h, Linear/SIMLinElKL.h, Linear/SIMLinElSup.h, Linear/SIMLinKLModal.h, Linear/SIMmcStatic.h, Linear/Test/TestStaticCondensation.C, Shell/KirchhoffLoveShell.h, Shell/NLKirchhoffLoveShell.h, Shell/SIMShell.C, Shell/SIMShell.h.
<!-- coverage end -->

## 4. Where the code does not have the property

Each row is a theorem about the model as the code is written. The English text is the comment of the theorem.

<!-- findings begin -->
| property | theorem | what the code does |
|---|---|---|
| C10 | `C10_axi_sign_violated` | C10 fails in axisymmetry: for a pure hoop stress the geometric stiffness is non-zero in tension but zero in compression, so reversing the sign of the stress does not reverse the matrix. |
| C11 | `C11_bdf_dual_violated` | C11 fails for linear elasticity when a BDF scheme is combined with a dual solution in a static solve with `intPrm[3] > 0`: one vector is allocated, the dual load uses the second. |
| C11 | `C11_reuse_violated` | Reuse of stored element matrices is undefined behaviour in a static analysis: the mass matrix slot is 0, and the code assigns to `A[-1]` because the restore of the mass matrix is guarded by the stiffness index. |
| C12 | `C12_bar_rhs_violated` | Bar element, right-hand side within a Newmark scheme: the integrand accesses the stiffness and mass matrix, none is allocated. |
| C12 | `C12_beam_hht_violated` | Beam element with the HHT split of forces in nonlinear dynamics: gravity is put in the third load vector, but two are allocated. |
| C12 | `C12_cable_moment_violated` | Cable element, end moment with load-correction stiffness in nonlinear dynamics: the stiffness matrix accessed is not allocated for boundary terms. |
| C12 | `C12_fbar_violated` | F-bar element: in every other mode that assembles element quantities the interior integration accesses a matrix or vector that does not exist, for all parameter settings. |
| C12 | `C12_mixed_alias_violated` | Continuous mixed element in dynamics: the mass matrix is accumulated in the coupling matrix between displacement and volumetric change (`A[1]` = Kut), and the stiffness in the one between displacement and pressure (`A[2]` = Kup). |
| C12 | `C12_mixed_violated` | Continuous mixed element, linear geometry (`intPrm[3] > 0`), or modes without a stiffness matrix: matrix index -1 is accessed as soon as there are strains. |
| C12 | `C12_mx_alias_violated` | Discontinuous mixed element in dynamics: the stiffness is accumulated in the pressure matrix. |
| C12 | `C12_nlshell_violated` | Nonlinear shell element, internal force mode: no vector is allocated. |
| C14 | `C14_names_violated` | Without analytical solution, *every* functional is printed under a wrong name. |
| C14 | `C14_strain_functional_violated` | With strains reported, a functional `a(u^h,w)` is integrated as strain times strain. |
| C14 | `C14_strain_violated` | With strains reported, the error of the projection relative to the analytical solution is not the energy of the difference: a strain is subtracted from a stress (here with the constitutive matrix `2`). |
| C15 | `C15_boundary_violated` | With an analytical solution and a formulation other than version 1, the jumps of the second projection are added three slots too early: to the quantities `l2h` and `arh` positions shifted, here slots 16 and 17 instead of 19 and 20. |
| C15 | `C15_jump_violated` | In the other formulations the jump is not squared, and a jump can cancel the residual. |
| C15 | `C15_own_basis_violated` | When the first projection has a basis of its own (so its nodal vector is empty), the jumps of the second projection are added to the slots of the first. |
| C15 | `C15_two_projections_violated` | For the other formulations in two dimensions the second projection also integrates the twist component left over from the first one. |
| C18 | `C18_final_violated` | A run from 0 to 1 in one converged step with a save interval of 2 saves nothing at all. |
| C18 | `C18_stamp_violated` | A step that first diverges at time 1 and then converges at time 1/2 after a cut-back is saved with the time stamp 1. |
| C20 | `C20_incompressible_violated` | For Poisson's ratio 1/2 the bulk modulus becomes zero instead of infinite: the relation `9KG/(3K+G) = E` fails for every `E ≠ 0`. |
| C20 | `C20_neohooke_violated` | With version 1 the two input forms of the same material disagree: bulk modulus 2 and shear modulus 1 is the material with Young's modulus 18/7 and Poisson's ratio 2/7, whose first Lamé parameter is 4/3, but the parameter used is 2. |
| C20 | `C20_shear_violated` | Young's modulus 1 and Poisson's ratio 0 is the material with bulk modulus 1/3 and shear modulus 1/2, but that input form gives another shear modulus. |
| C21 | `C21_restart_violated` | A failed attempt after the first load step corrupts the history, in every dimension: after a converged first step with deformation gradient `F`, a failed attempt that stopped at `G`, and the restart from `F`, the elastic left Cauchy-Green tensor for `F` is `G Gᵀ` instead of `F Fᵀ`. |
| C22 | `C22_curve_violated` | C22 is violated for the hardening curve combined with a linear hardening modulus: the modulus enters the returned slope but not the returned yield radius. |
| C22 | `C22_johnson_violated` | C22 is violated for the Johnson-Cook criterion without plastic strain: the returned hardening slope is `H + B epsZ^(n-1)` times 2/3, without the factor `n` of the derivative `n B ε^(n-1)` at `epsZ`, although the returned yield radius is constant in the neighbourhood; so the slope is not the derivative of the radius. |
| C22 | `C22_lode_violated` | C22 is violated for the Prager-Lode criterion: the check for yielding (`lIter` false) reports the negative yield radius whatever the stress, so no overstress is ever detected, although the yield value used by the return mapping at the same stress is positive and arbitrarily large. |
| C22 | `C22_voce_violated` | C22 is violated for the Voce criterion with fewer than thirteen parameters in the keyword input: the constructor only completes the list to eleven, and the yield function then reads outside of the array. |
| C23 | `C23_volume_violated` | With a varying volume ratio the energy is wrong, because the stress increments are accumulated without it and the sum is multiplied by the current ratio: for the law `S = E` (second Piola-Kirchhoff stress), strains 1 and 2 with volume ratios 1 and 2 give 3 instead of 2. |
| C24 | `C24_potential_violated` | C24 is violated by the volumetric law 4: at the undeformed state the pressure is the bulk modulus, not zero; the pressure is nowhere the derivative of the energy except at `J = ∞`, and the modulus is half of the second derivative. |
| C25 | `C25_axisymmetric_violated` | C25 is violated in axisymmetry, where the tangent has four rows (rr, zz, hoop, rz) but the stress tensor dimension is two: the hoop and shear components are transformed as shear components of the planes 12 and 23. For a pure stretch with ratios `a`, `b` and `c` of the three directions, the hoop stiffness is scaled with `(ab)²` instead of `c⁴`, and the shear stiffness with `(bc)²` instead of `(ab)²`. |
| C25 | `C25_plane_violated` | C25 is violated for a tangent with four rows and a plane deformation gradient: the components of the third direction are read outside of it. |
| C26 | `C26_axisymmetric_violated` | C26 is violated in axisymmetry by the modified material: at the undeformed state the tangent has no coupling between radial and hoop direction, and a hoop stiffness of `G` instead of `K + 4G/3`. |
| C26 | `C26_plane_violated` | C26 is violated in two dimensions: both materials write outside of the constitutive matrix when the stress has three components, as it has in plane strain; the standard material does so in axisymmetry (four components), too. |
| C26 | `C26_undeformed_violated` | C26 is violated with the volumetric law 4: the undeformed body has the stress `K` in all directions. |
| C28 | `C28_default_violated` | C28 is violated for pressures in the updated Lagrangian formulation with its default load option: the force on a surface element stretched by 3 in one tangential direction is that of the undeformed one. |
| C28 | `C28_traction_violated` | C28 is violated for tractions other than normal pressures in the updated Lagrangian formulation with load option 1: the load is scaled with the ratio of volumes instead of the ratio of areas. For a stretch by 2 along the normal of a unit square surface, the area is unchanged but the load is doubled. |
| C31 | `C31_solid_violated` | C31 is violated in three dimensions: the entry that couples `∂v_z/∂z` with `∂v_z/∂x` contains the shear stress xy instead of xz, as soon as the two differ. |
| C35 | `C35_active_violated` | C35 is violated: when the first iteration of the first step is repeated, the first slave node stays active although its gap has opened. |
| C36 | `C36_active_violated` | C36 is violated in the same way as C35: the first node stays active when the first iteration of the first step is repeated, although the augmented pressure is tensile. |
| C38 | `C38_plane_violated` | C38 is violated in two dimensions: for a contact point on the other side of the first master point the weights reproduce its mirror image, although they sum to one. |
| C38 | `C38_solid_violated` | C38 is violated in three dimensions: inside the triangle of master points, the weights of the second and third point are swapped. |
| C42 | `C42_bar_violated` | C42 is violated by the consistent mass matrix: translations in two different directions are coupled. |
| C43 | `C43_inertia_violated` | C43 is violated for the rotary inertia: a function that is equal to the constant `Iy` gives the inertia `Iy` instead of `rho * Iy`. |
| C43 | `C43_short_violated` | C43 is violated for the rotary inertia of the second form. |
| C43 | `C43_torsion_violated` | C43 is violated for torsion: a function that is equal to the constant `Ix` replaces the torsional constant. |
| C44 | `C44_buckling_violated` | C44 is violated in a buckling analysis, where the two parts are separate: the off-diagonal blocks of the geometric stiffness are taken from the material stiffness, so that a translation normal to a stretched bar gives a force. |
| C46 | `C46_couple_violated` | C46 is violated out of the plane: only part of the moment about the z-axis is represented, and there is a moment about another axis. |
| C46 | `C46_stiffness_first_violated` | C46 is violated at the first node: for a cable along the x-axis and a displacement of the end along y, the load correction stiffness has the wrong sign. |
| C46 | `C46_stiffness_last_violated` | C46 is violated at the last node: for a displacement of the end along the cable, the load correction stiffness has the wrong sign. |
| C47 | `C47_beam_violated` | C47 fails for beams with `nu ≠ 0`: a material with `E = 12`, `nu = 1/4` and a basis function with unit curvature. |
| C47 | `C47_field_violated` | C47 fails when Young's modulus is given by a field: only the first formulation uses it. |
| C47 | `C47_planeStrain_violated` | C47 fails for the default material and others in plane strain, here with `E = 12`, `nu = 1/4`. |
| C49 | `C49_recovery_violated` | C49 fails for recovered section forces: after a rigid rotation of a curved shell by a quarter turn about the first axis, moments are reported, although the strains, curvatures and internal forces of the element vanish (`C49_rigid`). |
| C52 | `C52_circular_deflection_violated` | C52 is violated by the deflection of the circular plate: it has a radial bending moment along the edge, where the plate is simply supported and the moment reported is zero. |
| C52 | `C52_circular_violated` | C52 is violated by the moments of the circular plate: for every load, the radial and circumferential moments do not balance the shear force P / (2 pi r) of a plate with a point load at its centre, whichever sign convention is used. |
| C52 | `C52_load_violated` | C52 is violated by the stop criterion: for a patch load of two thirds of the plate size at the centre, all terms with a 3 vanish, so that the moments consist of a single term although the deflection has more. |
| C52 | `C52_uniform_violated` | C52 is violated for a uniformly loaded plate when the maximum number of terms (attribute nTerm) is 1: the deflection is zero everywhere, but not the moments. |
| C54 | `C54_moments_violated` | **C54, the use in the program.** The three plate moments `m_xx, m_yy, m_xy` at each node are padded with two shear forces: from the second node on, the first moment stands in the place of the third. |
| C54 | `C54_padding_violated` | **C54 is false of the code.** Whenever the number of components grows to less than twice as many and there are at least two nodes, value number `nc-nd` of the second node is replaced by its first value; so the padding is wrong for every vector in which these two differ. |
| C55 | `C55_check_violated` | **C55 is false of the code.** With `-check` on the command line, the time integration is run with `-dynamic`, all load cases are solved with `-mlc`, the adaptive solution loop is run with `-dualadap`, the coupled problem is solved with `-1D2DKL`, and every eigenvalue setting makes the program assemble and solve an eigenvalue problem. |
| C55 | `C55_models_violated` | **C55, the last dimension option does not undo an earlier one.** After `-2DKL` the option `-2Dpstrain` still gives a plate model, so with conflicting options the first kind stays in force. |
| C55 | `C55_nonlinear_check_violated` | **C55 is false of the nonlinear program too.** `-check -stopTime 5` runs the simulation up to time 5, and `-stopTime -3` is a check. |
| C55 | `C55_options_violated` | **C55, options that do not do what they document.** `-qstatic` without an eigenvalue setting runs the dynamic time integration exactly as `-dynamic` does. `-staticCond` runs a free vibration analysis if the input file has a free-vibration eigenvalue setting, and does nothing at all with `-eig 1`. `-ignoreSol` solves an eigenvalue problem if there is any eigenvalue setting below ten. |
| C55 | `C55_short_token_violated` | **C55, short tokens.** A token such as `-1D2D` is accepted for `-1D2DKL` and then read beyond its end. |
| C55 | `C55_usage_violated` | **C55, the usage message.** It lists `-RHSOnly`; the program only knows `-RHSonly`. Given after the input file the listed spelling is ignored and the problem is solved; given before it, it is taken for the name of the input file. |
| C56 | `C56_lines_violated` | C56 (violation): a line with a master but no weight is ignored, and the element is reported as read. |
| C56 | `C56_patches_violated` | C56 (violation): couplings for a patch that does not exist are dropped without a message. |
| C56 | `C56_reread_violated` | C56 (violation): when the input is read again, as the adaptive solution does, the couplings of the first reading are still there and the weights double: the slave is the sum instead of the mean of its two masters. |
| C56 | `C56_rigid_input_violated` | C56 (violation): a master set that refers to a discrete point that does not exist is not reported; the program dereferences a null pointer. |
| C56 | `C56_rigid_violated` | C56 (violation): a rigid property on a patch that does not exist, or whose master point does not exist, is dropped without a message. |
| C58 | `C58_release_violated` | C58 (violation of the release part): a function parsed from the input under the code that is later used for an analytical condition is overwritten in the map and never released. |
| C58 | `C58_resolved_violated` | C58 (violation): conditions are left unresolved when the solution is given by expressions or is missing, and when the code is zero; a second deflection code is dropped although the solution has the deflection; rotations are dropped with both built-in plate solutions, which have no rotation fields. |
| C59 | `C59_input_violated` | C59 (violation for incomplete input and several lines): a line without a range is accepted and carries no load on any grid, and of two lines in the input only the last is loaded. |
| C60 | `C60_first_tag_violated` | C60 (violation, order of the sections): the boundary force is evaluated on the section with the smallest code, not on the first one of the input. |
| C60 | `C60_index_violated` | C60 (violation): with two sections, asking for the first one by its one-based number gives the reactions of the second, and asking for the second is undefined behaviour; with one section, asking for it is undefined behaviour. |
| C60 | `C60_total_violated` | C60 (violation, total reaction): the sum over the sections counts the reactions of a node once for every section it belongs to; with one node shared by two sections the total is not the sum over the nodes. The section reactions are sums over the nodes of the section. |
| C62 | `C62_input_violated` | **C62, the last setting does not always win.** In the input file an `updatedlagrange` after any mixed formulation is ignored; the same two settings on the command line give the updated Lagrangian formulation. |
| C62 | `C62_order_only_violated` | **C62, an order alone removes the default formulation.** If only an order is given, as by a `mixed` element without a known type, no integrand is created at all, although without any setting the total Lagrangian formulation would be used. |
| C64 | `C64_field_ignored_violated` | **C64 violated.** A Young's modulus given as a spatial *field* is used by the constitutive evaluation, but `getStiffness` (and hence the plate stiffness) ignores it. |
| C65 | `C65_dangling_violated` | **C65 violated (lifetime).** A texture with a single range whose stiffness is a function: after parsing, the function object is already deleted, and the first lookup is undefined behaviour. |
| C65 | `C65_shared_violated` | **C65 violated (own function).** Two ranges with a stiffness function each end up sharing the first one: the second function is never created. |
| C66 | `C66_ul_violated` | Updated Lagrangian formulation, arc-length mode: the second vector, from which the solver takes the load gradient, never receives the body load gradient; it is added to the load vector (the residual) instead. |
| C68 | `C68_volume_violated` | C68 is violated when the volume changes: with all lengths doubled, the updated Lagrangian mass of an element with one node and unit density and volume is 8, as is the body force, while it is 1 in the undeformed element. |
| C69 | `C69_four_violated` | C69 is violated by the rule with four points per direction: when a volume ratio of one is sampled in the first column of points and zero in the others, the ratio evaluated at the second point of a row is not zero. |
| C71 | `C71_translation_violated` | C71 is violated: at a point penetrating a sphere of radius two around the origin, a common translation of the sphere and the slave surface, which does not change the gap, is given a nonzero stiffness. |
| C73 | `C73_violated` | C73 is violated: with different second moments, the bending stiffness in the plane of the second axis is computed from `Iy`, the rotary inertia in the same plane from `Iz`. |
| C75 | `C75_degenerated_violated` | C75 is violated: a degenerated element, with tangent vector zero, is not reported; instead, axes whose components are not numbers are used. |
| C76 | `C76_violated` | C76 is violated: with another parametrisation of the same curve (`c` times faster), the section forces of the same deformation are multiplied by the square of `c`. |
| C77 | `C77_beam_violated` | C77 fails for beams with `nu ≠ 0`: with constant third derivative `w,xxx = 1` the moment changes by `-1` per length, but the shear force is `-16/15`. |
| C77 | `C77_local_violated` | C77 fails in local systems: with the first local axis along global y, and the second along -x, the shear force along the second local axis has the wrong sign: it is reported as +12 although the force along -x is -12. |
| C79 | `C79_fields_violated` | C79 fails with the option `noshear`: in recovery mode five values are announced, but without third derivatives of the basis functions only three are computed. |
| C81 | `C81_local_violated` | C81 fails for shells in a cylinder: the local system for the cylindrical part of a cylinder with a hemispherical end has the axis of the cylinder (-z) as the first direction. In every point of it and for every solution, the first membrane force and the shear force are reported as zero, although in the tangent plane of the shell they may have any value, so that a state with the membrane force 12 only is reported as being free of forces. |
| C84 | `C84_pipe_violated` | C84 fails: for every Poisson's ratio other than zero the strains of the pipe solution do not belong to any displacement, whenever the two sides have different temperatures: with `u = r εθ` the radial displacement, du/dr is not the radial strain. (The constant has 1-ν² where thermoelasticity requires 1-ν, Linear/AnalyticSolutions.C:198-200.) |
| C85 | `C85_middle_violated` | C85 (violation): when the model is preprocessed a second time the search starts from the old value, and the reference point of a straight boundary moves to one of its ends. |
| C86 | `C86_no_material_violated` | C86 (violation): without any material the initialisation reads outside the arrays. |
| C88 | `C88_clear_violated` | C88 (violation): after clearing the properties of a model with a line load the integrand refers to the deleted function. |
| C88 | `C88_reread_violated` | C88 (violation): a thickness function given for the set with code 5: after the input is read again, as the adaptive solution does, the integrand still refers to the function of the first reading, which has been deleted. |
| C89 | `C89_bar_again_violated` | does not hold for bars and beams preprocessed a second time: the node number found in the first run is then taken for a patch number. |
| C89 | `C89_bar_input_violated` | does not hold for the input of bars and beams: a load with a direction or a parameter out of range, or without them, is dropped and nothing is reported. |
| C89 | `C89_bar_moment_violated` | does not hold for moments on beam elements: the input is accepted, and the load writes outside the vector of three components. |
| C89 | `C89_direction_violated` | does not hold for a load without a valid direction: direction zero is accepted as an element load and writes outside the load vector of three components. |
| C89 | `C89_point_violated` | does not hold for the points of bars and beams which can not be evaluated: with element loads allowed, the error code is taken for an element number and no error is reported. |
| C90 | `C90_element_violated` | does not hold for the tensorial total Lagrangian element with an anisotropic material: the stiffness in the second direction is taken from the first. |
| C90 | `C90_one_violated` | does not hold in one dimension: the weight of the integration point is missing. |
| C90 | `C90_tl_solid_violated` | does not hold for the total Lagrangian routine in space with a general matrix: it takes the fifth stress for zx and the sixth for yz, the reverse of the order in all other code. Witness: a unit shear stiffness in yz only is seen by a motion with shear zx. |
| C91 | `C91_material_violated` | does not hold for superelements with different models: the material is activated in the superelement's model, but the stresses are evaluated by the integrand of the first model, with the material last activated there. |
| C91 | `C91_release_violated` | does not hold for two blocks with one name: the first model is never released. |
| C92 | `C92_final_violated` | does not hold for a save interval longer than the simulation: no step is saved, not even the final one. |
| C92 | `C92_projection_violated` | does not hold for linear dynamics with a projection: the projection vectors are never allocated, and the first step accesses a missing one. |
| C92 | `C92_restart_violated` | does not hold for failing serialization: the step asked for is not in the restart file and no error is reported. |
| C92 | `C92_status_violated` | does not hold for the meaning of the status: a failing projection together with a failing VTF output gives the status of a failing restart output. |
| C92 | `C92_stop_violated` | does not hold for stop times up to one, nor for the modal program: the command line is ignored. In the linear dynamics program a negative value gives its absolute value, which is the only way to ask for a short simulation. |
| C93 | `C93_dump_dir_violated` | does not hold for input files given with a leading `./`: the linear program writes to the root directory, while it prints the name in the current directory. |
| C93 | `C93_dump_dot_violated` | does not hold for directories with a dot in their name: the file is named after a part of the directory. |
| C93 | `C93_dump_length_violated` | does not hold for input files without an extension, or with one shorter than that of the dump file: the program writes behind the end of the file name. |
| C93 | `C93_restart_new_violated` | does not hold for the other programs: an existing restart file, such as the one that was restarted from, gets overwritten. |
| C93 | `C93_restart_violated` | does not hold for input files without an extension: the program is ended by an exception, or the file is named after a part of the directory. |
| C94 | `C94_arclen_violated` | does not hold for the adaptive arc-length method in the nonlinear program: the adaptivity flag is passed as the argument that is ignored. |
| C94 | `C94_coupled_close_violated` | does not hold for the file if output of a coupled simulator fails: the simulators are detached without the file having been closed. |
| C94 | `C94_coupled_names_violated` | does not hold from the tenth coupled simulator on: its field is named with a colon. |
| C94 | `C94_projection_violated` | does not hold for the linear dynamics and multi-load-case programs: with any projection they access a vector that does not exist. |
| C94 | `C94_shell_violated` | does not hold for the shell program: its exit status is zero whatever happens, even if the input file does not exist. |
| C95 | `C95_child_violated` | does not hold for other child elements: each one adds the value of its name, which is zero for names that do not look like numbers, to the parameters. |
| C95 | `C95_contact_violated` | does not hold for failing contact definitions: the materials read before are kept but no default is set. |
| C95 | `C95_default_violated` | does not hold for the default material across formats: the same two materials, the second with code zero, give different defaults. |
| C95 | `C95_moduli_violated` | does not hold for Young's modulus with a shear modulus: given `Emod` and `Smod` greater than one half, the elastic modulus is used as a bulk modulus. |
| C95 | `C95_text_violated` | does not hold for numbers given as the text of the XML element: they are not read. |
| C95 | `C95_version_violated` | does not hold for material versions in total Lagrange formulations: the version is ignored and the material is linear. |
| C95 | `C95_voce_text_violated` | does not hold for Voce hardening with two terms in the text format: with fewer than 13 numbers, the yield function reads outside of the parameters. |
| C96 | `C96_axial_violated` | does not hold in one dimension: all fields have the same name, the von Mises value and the internal variables as well. |
| C96 | `C96_displacement_violated` | does not hold for displacements in axial symmetry: without a prefix the components are named after Cartesian directions, and the name of the whole vector with a prefix is read outside of the table. |
| C96 | `C96_exact_violated` | does not hold for the comparison with an analytical solution, for a material with internal variables: the first principal value of the computed solution is at the place of a zero of the analytical one. |
| C96 | `C96_failing_violated` | does not hold if the principal values of a point can not be found: the values are fewer than announced, and internal variables move to other places than in other points. |
| C96 | `C96_local_violated` | does not hold for local systems without principal values: the components are global ones. |
| C96 | `C96_order_violated` | does not hold for principal values with materials that have internal variables: all of them are written under the wrong names. The first principal value is named like the first internal variable, which is named like the following one, or like the first principal value. |
| C96 | `C96_strain_violated` | does not hold for strains in plane stress: the shear strain is named like a stress. |
| C97 | `C97_age_violated` | does not hold in plane strain with a stiffness which depends on the age: the transverse stress is corrected with the stiffness at age zero. |
| C97 | `C97_stress_axi_violated` | does not hold in axial symmetry for a material set to plane strain: the thermal stress is subtracted once more from the hoop stress. |
| C97 | `C97_stress_plane_strain_violated` | does not hold in plane strain: as the thermal strain is not subtracted in the direction without displacement, the in-plane normal stresses miss the part `λ ε_T` and the transverse one a part `2 ν λ ε_T`. (Only without Poisson's effect the stresses are right.) |
| C98 | `C98_again_violated` | does not hold in the second and all further assemblies, for any order: what acted on a boundary with an implicit traction in the first one is replaced by the explicit traction of the last boundary with such. |
| C98 | `C98_gravity_violated` | does not hold for a gravity vector with too few components: a null pointer is read. |
| C98 | `C98_loads_violated` | does not hold for densities which vanish in the origin: the model is taken as unloaded, so that the external energy is not integrated. |
| C98 | `C98_material_violated` | does not hold without materials: memory outside of the list is accessed. |
| C98 | `C98_pressure_violated` | does not hold for a second section of pressures: its first pressure also replaces the first one of the first section. |
| C98 | `C98_shell_loads_violated` | does not hold for plates and shells with a density which vanishes in the origin: the gravity load is not seen. |
| C98 | `C98_traction_violated` | does not hold for a boundary with an implicit traction, such as a pressure, after one with an explicit traction: the explicit traction of the other boundary acts on it. |
| C99 | `C99_bar_area_violated` | C99 fails for the given mass of bars without area, where it is ignored. |
| C99 | `C99_bar_mass_violated` | C99 fails for the mass of bars with given axial stiffness: the given area is ignored then. |
| C99 | `C99_beam_material_violated` | C99 fails for other values of Poisson's ratio, which are ignored without a message: the shear modulus is that of steel for all materials. |
| C99 | `C99_box_violated` | C99 fails for boxes whose walls fill the section more than once: the area may vanish. |
| C99 | `C99_cable_violated` | C99 fails for cable elements of another type, or after a bar element: the bar is used as a cable, which is undefined. A bar element of type cable leaves the bending stiffness of the cable without a value. |
| C99 | `C99_constant_violated` | C99 fails for lists of two values: the polar moment does not follow. |
| C99 | `C99_csv_blank_violated` | C99 fails for tables with an empty line, or a title line without commas: the program is aborted by an exception. |
| C99 | `C99_csv_empty_field_violated` | C99 fails for empty fields: they are skipped, and the following fields are taken for the ones before them. |
| C99 | `C99_pipe_violated` | C99 fails for walls that are thicker than the radius: a hole of the radius t - R is left, and the area vanishes for t = 2R. |
| C99 | `C99_polar_violated` | C99 fails for second moments given by attributes: the polar moment of area, used for the mass, and the torsional constant keep their default values. |
| C100 | `C100_anasol_violated` | C100 fails for solutions that depend on the material if they are given before it, and for missing parameters in the text format: null pointers are used. |
| C100 | `C100_recovery_file_violated` | C100 fails for names without extension in directories with a dot: the name of the directory is cut, and all files of the parent directory get the same recovery file. |
| C100 | `C100_recovery_violated` | C100 fails for a condensation after a recovery: the matrix in memory is never replaced. |
| C100 | `C100_retained_violated` | C100 fails for items with common nodes, which are retained twice, and for a second preprocessing of the model, after which all nodes are. |
| C101 | `C101_restart_violated` | C101 fails for two elasticity solvers in a simulation: the external energy is not stored under the name of the solver, and the first one gets that of the second. |
| C101 | `C101_save_violated` | C101 fails for a save increment of zero, by which is divided. |
| C102 | `C102_labels_violated` | C102 fails for models in total Lagrange formulation: the volume is printed as stress norm; with an analytical solution the exact energy is printed as stress norm, the error as pressure norm, and the volume as deviatoric stress norm. |
| C102 | `C102_plane_stress_violated` | C102 fails for plane stress: the pressure is half of the trace, not a third as printed, and the deviatoric norm misses the out-of-plane part. |
| C103 | `C103_leak_violated` | C103 fails in one respect: a function of the input with the code of the analytical displacements is never deleted. |
| C103 | `C103_second_code_violated` | C103 fails for every model that asks for analytical displacements with two codes, as each topology set has its own: those with the second one are not fixed at all. |
| C104 | `C104_extreme_violated` | C104 fails in total Lagrangian formulations: the extreme values of all steps are accumulated, those of a step with smaller stresses are not found. |
| C104 | `C104_transfer_violated` | C104 fails for several patches: the vectors of the patches take the place of those of the model, such that there are too many. |
| C104 | `C104_values_violated` | C104 fails for several patches: the first vector, which is taken for the current solution, has the values of the first patch only. Witness: two elements with a common equation. |
| C105 | `C105_name_violated` | C105 fails for the tenth body, which is called "Rigid Body :". |
| C105 | `C105_order_violated` | C105 fails when the condition comes before the slave set, which changes nothing: the body is free. The same holds for a movement in several directions at once. |
| C105 | `C105_radius_violated` | C105 fails for a body without radius after one with a radius: it gets that one, not the default. |
| C105 | `C105_sphere_violated` | C105 fails for a sphere in a plane model: the displacement of other nodes is taken. Witness: node 2 of three nodes is moved by (10, 20), the sphere by (30, 40). As the last node it reads outside of the vector. |
| C105 | `C105_two_sets_violated` | C105 fails for a body with two slave sets: each gets master nodes of its own, and the body only follows those of the second. |
| C106 | `C106_density_violated` | C106 fails for a material without density: it has none in text input and the default in tags. |
| C106 | `C106_loads_violated` | C106 fails for two sections: the loads of the first one are lost. In a file which ends too early there are zero loads outside of the beam. |
| C106 | `C106_no_material_violated` | C106 fails without materials: memory outside of the arrays is read. |
| C106 | `C106_pressure_violated` | C106 fails for a pressure tag without set and code: nothing acts. With a code it is as in text input. |
| C106 | `C106_short_line_violated` | C106 fails for lines which are too short: a null pointer is converted. |
| C106 | `C106_thickness_violated` | C106 fails for a thickness of zero, which is what a line without thickness has: the region has the thickness of the one before it. |
| C107 | `C107_edge_violated` | C107 fails for a position on an edge: text input takes it as a point load, a tag as a pressure on the whole plate. |
| C107 | `C107_order_violated` | C107 fails when the solution is given before the material: a null pointer is used. |
| C107 | `C107_short_violated` | C107 fails for text with half a position or half an extension, and with less than three numbers. |
| C108 | `C108_eccentric_violated` | C108 fails for eccentric beams when only the force vector is wanted, and for their geometric stiffness: the element is refused as soon as there are displacements. |
| C108 | `C108_lineload_violated` | C108 fails for distributed loads: they are read from the input, but the element is the same for all of them. Without gravitation an undeformed beam has no load, whatever distributed load is given. |
| C108 | `C108_small_violated` | C108 fails for displacements which are very small compared with the length: there are no internal forces. Witness: a unit beam stretched by a hundredth of the limit. |
| C109 | `C109_dual_violated` | C109 fails for the error estimate of section forces: it is smaller than the error it bounds. Witness: two elements with unit errors. |
| C109 | `C109_reference_violated` | C109 fails for plates: with shear forces the projected solution has more components than the analytical one, so that the latter is extended, but its norms are never evaluated. Witness: the five components of a plate with 10 nodes against the three moments. |
| C110 | `C110_dump_violated` | does not hold for other input files: without an extension, or with one of less than three characters, memory behind the name is overwritten, and with a dot in the name of a directory the files are written elsewhere. |
| C110 | `C110_precision_violated` | does not hold for `-outPrec 3` in dynamic and arc-length simulations: it is taken as if it were not given. |
| C110 | `C110_restart_violated` | does not hold for input files without an extension: the program ends with an exception, or all files in the parent directory get the same restart file. |
| C111 | `C111_numbering_violated` | does not hold if a slave node has a higher number than a master node, as in a model where geometry is added after the contact: its area is added outside of the vector. |
| C112 | `C112_hoop_violated` | C112 fails in axisymmetry: a ring of any material that is expanded radially by `ur` has no internal forces at all in both formulations, since the hoop strain is not part of the strains which decide whether there are stresses. |
| C112 | `C112_residual_violated` | C112 fails for materials with stresses in the unstrained state, such as residual stresses after plastic deformation: the forces jump where the strains vanish. Witness: a triangle with a constant stress, which is stretched from the undeformed state. |
| C115 | `C115_unstrained_violated` | C115: without strains all forces of the element are zero, whatever the values of volume change and pressure: here the volume ratio is 1, the volume change is 2 and the pressure is 5. |
| C116 | `C116_axisymmetric_violated` | **C116 (axisymmetry), violated.** In an axisymmetric problem the boundary forces lack the factor `2πr` of the loads: a boundary at radius `r` under the traction `p` has the nodal load `2πr p w` and the reported nodal force and resultant `p w`. |
| C116 | `C116_strain_violated` | **C116 (strain output), violated.** When the output of strains is wanted instead of stresses, the boundary forces are computed from the strains: the bar under the stress `E ε` with the strain `ε` reports the force `ε w`. |
| C118 | `C118_axes_violated` | violated for kinematic hardening: the plastic strains are stored per principal direction in the order of the principal values, not per material direction. After plastic extension along the first axis, the load is reversed. The relative stress, with the back stress along the axes where it was built up, is then outside of the yield surface by 80 percent, but the evaluation takes the step as elastic. This is so for every routine for principal values that sorts in descending order. |
| C121 | `C121_old_violated` | does not hold for the tensorial total Lagrangian element with principal values or in plane strain: fewer values are computed than announced, and in plane strain the shear stress is named like the normal stress and the von Mises stress like the shear stress. |
| C124 | `C124_early_violated` | C124: the request in the input file precedes the plastic material. The table then has no room for the variables of the material: the plastic strain is not reported, whatever it is. |
| C124 | `C124_input_violated` | C124: extreme values which are asked for in the input file are not reported when there is neither visualization nor projection of the results, even if there are result points. |
| C124 | `C124_nothing_violated` | C124: extreme values which are asked for on the command line are not reported when there is neither visualization nor projection of the results, and no result points are printed: whatever the stresses, nothing is printed, or zeros for all patches. |
| C124 | `C124_unsaved_violated` | C124: with visualization and without projection, a step whose results are not saved ends in undefined behaviour: the projected results of the empty list are used. |
| C125 | `C125_functions_violated` | does not hold if one of the functions is not a vector function: it removes all functions given before, which are no longer reported, while their solution vectors remain. |
| C125 | `C125_outside_violated` | does not hold for an element outside the domain of the extraction function when there is a present solution `u`: the strains of `u` are still in the variable of the strains, and the element gets the forces of the present solution as dual load. |
| C125 | `C125_small_violated` | does not hold for small values of the extraction function: a function with strains below the tolerance has no dual load, while its multiple has. |
| C126 | `C126_mass_violated` | does not hold for the mass matrix: after a request for reuse, the mass matrices of the elements are zero, although they have been stored. |
| C126 | `C126_stiffness_violated` | does not hold in modes without mass matrix: after a request for reuse, the element assigns to a matrix before the first one. |
| C130 | `C130_dropped_violated` | Point loads without direction or outside of the patch are dropped and the input is accepted. |
| C130 | `C130_functions_violated` | A file with the name of the first function (or of a comment in front of it) is read in place of the functions of the input. |
| C130 | `C130_load_violated` | A line load or a distributed moment without content is a null pointer access. |
| C130 | `C130_planar_violated` | The unknowns of a node, and the directions of the loads that are accepted for bars: in a planar model a load in the third direction is accepted although nodes have two unknowns. |
| C131 | `C131_bodyforce_violated` | A body force without set and code is ignored and the input is accepted. |
| C131 | `C131_functions_violated` | In a material with several property functions all functions are read from the first child element: Poisson's ratio and the density are the function given for the stiffness. |
| C131 | `C131_local_violated` | An unknown local system is ignored and the input is accepted. |
| C131 | `C131_rejected_violated` | Two functions of the input, and the consequence for a typical modulus: the material is rejected at every point although Poisson's ratio is 3/10 in the input. |
| C131 | `C131_reread_violated` | Two materials of which the second one has the option plane strain: the first material is in plane stress when the input is read, and in plane strain when it is read again in an adaptive simulation. |
| C138 | `C138_material_violated` | C138 (rejected materials, violated): a shell whose material is rejected by the constitutive law (Poisson's ratio outside of [0,1/2)) is assembled without failure, and has no stiffness at all, since `KirchhoffLoveShell::evalInt` (Shell/KirchhoffLoveShell.C:48-49) does not use the result of `evalK`. The equations then have no solution unless the free degrees of freedom have no loads. |
| C139 | `C139_eccentric_violated` | C139 (eccentricities, violated): a frame with an eccentric member that is displaced in the static solution has no buckling analysis: the assembly fails. |
| C145 | `C145_momentum_violated` | C145 fails without lumped masses: a bar that is accelerated in the first direction also has a change of momentum in the second one, two thirds of that in the first. |
| C147 | `C147_material_violated` | C147 (rejected materials, violated): a shell whose material is rejected by the constitutive law (Poisson's ratio outside of [0,1/2)) is assembled without failure and without internal forces, since `NLKirchhoffLoveShell::evalInt` (Shell/NLKirchhoffLoveShell.C:59-66) does not use the result of `evalKandS`: however it is deformed, it moves as if its points were not connected, all with the acceleration of gravity. |
<!-- findings end -->
