{"id": "C01", "title": "Elasticity matrix and compliance matrix are mutual inverses", "statement": "For a valid isotropic material, the constitutive matrix returned by LinIsotropic::evaluate with iop=0 and the matrix returned with iop=-1 are inverses of each other in 1D, 3D, plane stress, plane strain and axisymmetry (norm integrands rely on this when they turn stresses into energies).", "quantifier": "every Young's modulus E != 0, every Poisson's ratio 0 <= nu < 1/2, every supported dimension / plane state", "why_tests_cant": "Holds for a continuum of real parameter values; a test samples finitely many of them.", "anchors": ["Elasticity/LinIsotropic.C: LinIsotropic::evaluate"]}
{"id": "C02", "title": "Elasticity matrix is symmetric positive definite", "statement": "The constitutive matrix is symmetric and strictly positive definite for every admissible material, so strain energy is positive for every non-zero strain and the reported strain energy is one half of stress times strain.", "quantifier": "every E > 0, 0 <= nu < 1/2, every strain vector, every dimension / plane state", "why_tests_cant": "Holds for a continuum of real parameter values; a test samples finitely many of them.", "anchors": ["Elasticity/LinIsotropic.C: LinIsotropic::evaluate"]}
{"id": "C03", "title": "Material rejects exactly the inadmissible Poisson's ratios", "statement": "In more than one dimension LinIsotropic::evaluate reports failure exactly when nu is outside [0,1/2), with no stress returned; for admissible nu no division by zero occurs in the evaluation.", "quantifier": "every E, every real nu, every dimension, every iop", "why_tests_cant": "The boundary must be exact over the reals, and failure must be independent of all other arguments.", "anchors": ["Elasticity/LinIsotropic.C: LinIsotropic::evaluate"]}
{"id": "C04", "title": "Plane states are exact reductions of three-dimensional Hooke's law", "statement": "The stress computed in 3D is lambda*tr(eps)*I + 2*mu*eps with the Lame parameters the same material reports; the plane strain, plane stress and axisymmetric stresses equal the 3D stress for the completed strain state (eps_zz = 0, resp. sigma_zz = 0), including the out-of-plane sigma_zz = nu*(sigma_xx+sigma_yy) in plane strain.", "quantifier": "every E > 0, 0 <= nu < 1/2, every strain", "why_tests_cant": "Holds for a continuum of real parameter values; a test samples finitely many of them.", "anchors": ["Elasticity/LinIsotropic.C: LinIsotropic::evaluate (both overloads)"]}
{"id": "C05", "title": "Texture material lookup picks the first matching interval and never reads outside the image", "statement": "For a parameter point (u,v), the texture material either selects the first material (in key order) whose intensity interval contains the pixel value, or reports that there is none; no pixel outside the image is ever read.", "quantifier": "every image size, every pixel content, every table of intervals, every (u,v)", "why_tests_cant": "Unbounded image sizes, interval tables and parameter values.", "anchors": ["Elasticity/IsotropicTextureMat.C: findMaterial, evaluate"]}
{"id": "C06", "title": "Strain-displacement matrix is the symmetric displacement gradient", "statement": "Multiplying the B-matrix with a nodal displacement vector gives the engineering strain of the interpolated displacement field (with the hoop strain u/r in axisymmetry); in particular every infinitesimal rigid-body motion gives zero strain.", "quantifier": "every number of element nodes, every shape-function gradient, every displacement vector, dimension 1, 2, 3 and axisymmetric", "why_tests_cant": "Arbitrary number of nodes and arbitrary basis functions.", "anchors": ["Elasticity/Elasticity.C: formBmatrix (both), kinematics"]}
{"id": "C07", "title": "Continuum element stiffness is symmetric, positive semi-definite and free of spurious rigid-body stiffness", "statement": "The element stiffness accumulated over integration points is symmetric, gives non-negative energy, and produces no force for rigid-body motions.", "quantifier": "every number of nodes and integration points, every non-negative weight, every symmetric positive semi-definite constitutive matrix", "why_tests_cant": "Arbitrary mesh, quadrature and basis.", "anchors": ["Elasticity/LinearElasticity.C: evalInt", "Elasticity/Elasticity.C: formBmatrix"]}
{"id": "C08", "title": "Continuum mass matrix carries exactly the total mass in every direction", "statement": "The consistent mass matrix is symmetric positive semi-definite, does not couple different directions, and a unit rigid translation gives exactly the integrated mass.", "quantifier": "every number of nodes, every basis forming a partition of unity, every density and quadrature", "why_tests_cant": "Arbitrary basis and quadrature.", "anchors": ["Elasticity/Elasticity.C: formMassMatrix"]}
{"id": "C09", "title": "Reported load resultant equals the sum of the assembled nodal loads", "statement": "The load resultant that is reported to the user equals the sum over all nodes of the assembled external load vector, for body forces and boundary tractions.", "quantifier": "every basis forming a partition of unity, every body force / traction, 2D, 3D and axisymmetric", "why_tests_cant": "Arbitrary basis, loads and quadrature.", "anchors": ["Elasticity/Elasticity.C: formBodyForce, evalBou"]}
{"id": "C10", "title": "Geometric stiffness is linear in the stress", "statement": "The geometric stiffness contribution is symmetric, and it is a linear function of the stress state: reversing the sign of all stresses reverses the sign of the matrix (needed by linearised buckling, where stresses scale with the load factor).", "quantifier": "every stress state, every basis, 2D, 3D and axisymmetric", "why_tests_cant": "Quantifies over all stress states, including signs a benchmark never reaches.", "anchors": ["Elasticity/Elasticity.C: formKG"]}
{"id": "C11", "title": "Every element matrix and vector index used during assembly exists", "statement": "For every solution mode and every time-integration parameter setting, each matrix or vector slot that the continuum integrand writes to or reads from was allocated for that mode.", "quantifier": "every solution mode, every value of the integration parameters, linear and nonlinear dynamics, with and without dual solution", "why_tests_cant": "Out-of-range accesses are silent in release builds and depend on the combination of mode and parameters.", "anchors": ["Elasticity/ElasticBase.C: setMode", "Elasticity/Elasticity.C: getLocalIntegral", "Elasticity/LinearElasticity.C: setMode, evalInt, initElement"]}
{"id": "C12", "title": "Specialised formulations allocate every element matrix they use", "statement": "As the previous property, for the F-bar, mixed, beam, bar, cable, plate and shell elements; quantities that are separate in the theory do not share a matrix.", "quantifier": "every solution mode and integration parameter setting that the formulation accepts without an error message", "why_tests_cant": "Depends on combinations of mode, parameters and formulation which no regression test covers.", "anchors": ["FiniteDeformation/NonlinearElasticityFbar.C: getLocalIntegral", "FiniteDeformation/NonlinearElasticityULMX.C: getLocalIntegral", "FiniteDeformation/NonlinearElasticityULMixed.C: getLocalIntegral", "Beam/ElasticBeam.C: getLocalIntegral", "Beam/ElasticBar.C: getLocalIntegral"]}
{"id": "C13", "title": "Switching solution mode leaves no trace of earlier modes", "statement": "The matrix and vector roles established by setMode depend only on the new mode and the integration parameters, not on the sequence of modes that was active before, and the number of solution vectors kept is never lower than the mode needs.", "quantifier": "every finite sequence of mode changes", "why_tests_cant": "Unbounded histories of mode changes.", "anchors": ["Elasticity/ElasticBase.C: setMode", "Elasticity/KirchhoffLove.C: setMode", "Beam/ElasticBeam.C: getLocalIntegral"]}
{"id": "C14", "title": "Norm quantities: declared count, written slots and printed names agree", "statement": "For the continuum norms, the number of quantities declared for a group equals the number written per integration point, distinct quantities are written to distinct slots, and the name printed for a slot is that of the quantity integrated into it.", "quantifier": "every number of projections and external functionals, with and without analytical solution", "why_tests_cant": "Unbounded number of projection groups and functionals.", "anchors": ["Elasticity/Elasticity.C: ElasticityNorm::evalInt, getNoFields, getName, finalizeElement"]}
{"id": "C15", "title": "Plate norm jumps are accumulated in the slots they are reported from", "statement": "For the plate norms, the interior and the boundary/interface contributions of the residual estimate of each projection are accumulated in the same slots that are declared and named for them.", "quantifier": "every number of projections, every plate formulation version, with and without analytical solution", "why_tests_cant": "Unbounded number of projections.", "anchors": ["Linear/KirchhoffLovePlate.C: KirchhoffLovePlateNorm::evalInt, evalBou, getNoFields, getName, finalizeElement"]}
{"id": "C16", "title": "Reported maximum stress is the true maximum over all evaluated points", "statement": "After any sequence of result point evaluations, the reported extreme value of each component is one of the evaluated values, no evaluated value exceeds it in magnitude, and the reported location is where it occurred.", "quantifier": "every finite sequence of evaluated points and values, every patch", "why_tests_cant": "Unbounded evaluation histories.", "anchors": ["Elasticity/Elasticity.C: evalSol2, initMaxVals"]}
{"id": "C17", "title": "Arc-length stepping satisfies its constraint and terminates", "statement": "Every corrector of the arc-length driver keeps the increment on the normal plane it is defined by, the load step iteration terminates within the iteration limit, and a diverged, converged or slow status is reported exactly in the documented cases.", "quantifier": "every tangent, residual and increment, every convergence history", "why_tests_cant": "Unbounded convergence histories and arbitrary vectors.", "anchors": ["Elasticity/ArcLengthDriver.C: solveStep, solveLinearizedSystem, checkConvergence"]}
{"id": "C18", "title": "Nonlinear load stepping stamps results with the time they were computed at", "statement": "Each saved result carries the time of the step that produced it, steps that failed are never saved, and the return status tells whether the simulation reached its end.", "quantifier": "every sequence of step outcomes including failures and step-size cut-backs", "why_tests_cant": "Unbounded sequences of failures and cut-backs.", "anchors": ["Elasticity/NonlinearDriver.C: solveProblem"]}
{"id": "C19", "title": "Modal time integration always assembles loads on the full system", "statement": "Throughout a modal dynamic simulation the load vector is always assembled on the full finite element system and the modal equations are always solved on the modal system, for every number of time steps and iterations.", "quantifier": "every sequence of time steps and iterations", "why_tests_cant": "Unbounded sequences of swaps between the two equation systems.", "anchors": ["Linear/SIMLinElModal.h: assembleSystem, expandSolution", "Linear/SIMLinKLModal.C"]}
{"id": "C20", "title": "Elastic moduli conversions are consistent", "statement": "Bulk/shear and Young/Poisson input forms of the same material give the same internal moduli in the plasticity and neo-Hookean materials, and the derived moduli satisfy the textbook relations.", "quantifier": "every admissible pair of moduli", "why_tests_cant": "Holds for a continuum of real parameter values; a test samples finitely many of them.", "anchors": ["FiniteDeformation/PlasticMaterial.C: PlasticMaterial::PlasticMaterial", "FiniteDeformation/NeoHookeMaterial.C: findLameParams", "Elasticity/LinIsotropic.C"]}
{"id": "C21", "title": "Plastic history is advanced only by converged steps", "statement": "The plastic strain history used at the start of a load step is the one of the last converged step: iterations inside a step never change it, and a failed step that is restarted leaves it unchanged.", "quantifier": "every sequence of iterations, failures and restarts, every number of integration points", "why_tests_cant": "Unbounded histories with failures.", "anchors": ["FiniteDeformation/PlasticMaterial.C: initIntegration, evaluate, updateState, PlasticPoint::updateHistoryVars"]}
{"id": "C22", "title": "Yield functions and their derivatives are consistent", "statement": "Each yield criterion returns derivatives that are the derivatives of the returned yield value, and positive overstress is reported as yielding.", "quantifier": "every stress invariant and hardening state, every yield criterion", "why_tests_cant": "Holds for a continuum of real parameter values; a test samples finitely many of them.", "anchors": ["FiniteDeformation/PlasticMaterial.C: PlasticPoint::yfunc"]}
{"id": "C23", "title": "Accumulated strain energy of a linear path equals the closed form", "statement": "The trapezoidal path integral of strain energy used by the inelastic materials and the updated Lagrangian norms telescopes to the exact stored energy for linear response along any loading history.", "quantifier": "every finite loading path", "why_tests_cant": "Unbounded loading histories.", "anchors": ["FiniteDeformation/PlasticMaterial.C: PlasticPoint::energyIntegral", "FiniteDeformation/NonlinearElasticityUL.C: ElasticityNormUL::evalBou"]}
{"id": "C24", "title": "Neo-Hookean volumetric response derives from its potential", "statement": "The volumetric pressure and modulus are the first and second derivatives of the volumetric energy, and the undeformed state is stress free, for every volumetric law offered.", "quantifier": "every J > 0, every bulk modulus, every law number", "why_tests_cant": "Holds for a continuum of real parameter values; a test samples finitely many of them.", "anchors": ["FiniteDeformation/NeoHookeMaterial.C: volumetricModuli"]}
{"id": "C25", "title": "Push-forward of material tensors matches the tensor definition", "statement": "The Cauchy stress and spatial tangent computed from a linear material are the push-forward of the second Piola-Kirchhoff stress and the material tangent.", "quantifier": "every invertible deformation gradient, every stress and tangent", "why_tests_cant": "Holds for a continuum of real parameter values; a test samples finitely many of them.", "anchors": ["FiniteDeformation/LinearMaterial.C: evaluate", "FiniteDeformation/PlasticMaterial.C: PlasticPoint::evaluate"]}
{"id": "C26", "title": "Neo-Hookean stress is frame indifferent and its tangent has the required symmetry", "statement": "The neo-Hookean Cauchy stress is a symmetric isotropic function of the left Cauchy-Green tensor, vanishes in the undeformed state, and its tangent is symmetric.", "quantifier": "every deformation gradient with positive determinant", "why_tests_cant": "Holds for a continuum of real parameter values; a test samples finitely many of them.", "anchors": ["FiniteDeformation/NeoHookeMaterial.C: stdNeoHooke, modNeoHooke"]}
{"id": "C27", "title": "Total Lagrangian strain-displacement matrix is the exact variation of the Green-Lagrange strain", "statement": "The B-matrix of the total Lagrangian formulation times a displacement increment is the derivative of the Green-Lagrange strain in that direction, in 2D, 3D and axisymmetry.", "quantifier": "every deformation gradient, every basis, every increment", "why_tests_cant": "Arbitrary basis and deformation.", "anchors": ["FiniteDeformation/NonlinearElasticityTL.C: kinematics"]}
{"id": "C28", "title": "Updated Lagrangian pressure loads follow the deformed surface", "statement": "Dead tractions given per undeformed area and follower pressures on the deformed surface are converted with Nanson's formula.", "quantifier": "every deformation gradient, every traction", "why_tests_cant": "Holds for a continuum of real parameter values; a test samples finitely many of them.", "anchors": ["FiniteDeformation/NonlinearElasticityUL.C: evalBou"]}
{"id": "C29", "title": "F-bar integration rule is accepted exactly when it is a tensor-product rule", "statement": "The F-bar element accepts the volumetric sampling points exactly when their number is an exact power of the number of points per direction, and never indexes outside its sampling tables.", "quantifier": "every number of points, every dimension", "why_tests_cant": "All natural numbers.", "anchors": ["FiniteDeformation/NonlinearElasticityFbar.C: FbarElmData::init"]}
{"id": "C30", "title": "F-bar deformation gradient has the sampled volume change", "statement": "The modified deformation gradient has exactly the averaged (sampled) determinant while leaving the isochoric part unchanged.", "quantifier": "every deformation gradient and averaged volume change of the same sign", "why_tests_cant": "Holds for a continuum of real parameter values; a test samples finitely many of them.", "anchors": ["FiniteDeformation/NonlinearElasticityFbar.C: evalInt", "FiniteDeformation/NonlinearElasticityULMX.C: finalizeElement"]}
{"id": "C31", "title": "F-bar spatial tangent is assembled from tangent and stress without index errors", "statement": "The full (non-symmetric Voigt) tangent equals the constitutive tangent plus the initial stress term for every pair of gradient components, in 2D, axisymmetry and 3D.", "quantifier": "every constitutive matrix and stress tensor", "why_tests_cant": "Holds for a continuum of real parameter values; a test samples finitely many of them.", "anchors": ["FiniteDeformation/NonlinearElasticityFbar.C: getAmat2D, getAmatAx, getAmat3D"]}
{"id": "C32", "title": "Mixed element Newton matrix is a faithful renumbering of its blocks", "statement": "The coupled displacement / volume-change / pressure element matrix contains every block entry exactly once at the place of its unknown, is symmetric when its diagonal blocks are, and the right-hand side is ordered the same way.", "quantifier": "every number of displacement and pressure nodes", "why_tests_cant": "All element sizes.", "anchors": ["FiniteDeformation/NonlinearElasticityULMixed.C: MixedElmMats::getNewtonMatrix, getRHSVector"]}
{"id": "C33", "title": "Mixed volume averaging preserves volume", "statement": "The element-wise projected volume change integrates to the deformed element volume, for every pressure order, and a constant volume change is reproduced.", "quantifier": "every number of integration points and pressure modes", "why_tests_cant": "All element sizes and deformations.", "anchors": ["FiniteDeformation/NonlinearElasticityULMX.C: finalizeElement"]}
{"id": "C34", "title": "Mixed tangent projection removes exactly the volumetric part", "statement": "The deviatoric/volumetric split of the tangent in the mixed formulation is the congruence with the deviatoric projector and the remaining blocks recombine to the full tangent.", "quantifier": "every tangent matrix", "why_tests_cant": "Holds for a continuum of real parameter values; a test samples finitely many of them.", "anchors": ["FiniteDeformation/MixedTanMat.C"]}
{"id": "C35", "title": "Contact forces act only at closed gaps and balance between master and slave", "statement": "The penalty contact contribution is active exactly for slave nodes that penetrate, contact forces on the master and slave sides sum to zero, and the material part of the contact tangent is symmetric positive semi-definite.", "quantifier": "every gap distribution, every number of nodes, every history of iterations", "why_tests_cant": "Arbitrary contact states and histories.", "anchors": ["FiniteDeformation/MortarContact.C: MortarPenalty::initIntegration, accResAndTangent, assResAndTangent"]}
{"id": "C36", "title": "Augmented Lagrangian contact enforces the complementarity conditions", "statement": "A slave node is active exactly when the augmented pressure is compressive; the residual of the multiplier equations vanishes exactly at states satisfying zero gap (active) or zero multiplier (inactive), and the element matrix is symmetric.", "quantifier": "every multiplier / gap state, every number of nodes", "why_tests_cant": "Arbitrary contact states.", "anchors": ["FiniteDeformation/MortarContact.C: MortarAugmentedLag, ALElmMats"]}
{"id": "C37", "title": "Rigid contact surfaces: gap normal and gap curvature are consistent", "statement": "For rigid spheres, cylinders and planes the gap gradient is the unit normal and the geometric stiffness is the second derivative of the gap.", "quantifier": "every point off the axis/centre, every body position", "why_tests_cant": "Holds for a continuum of real parameter values; a test samples finitely many of them.", "anchors": ["FiniteDeformation/RigidBody.C: RigidSphere, RigidCylinder, RigidPlane"]}
{"id": "C38", "title": "Rigid plane distributes contact forces to its master points in equilibrium", "statement": "The interpolation weights of the rigid plane sum to one and reproduce the contact point, so forces and moments on the plane are transferred exactly.", "quantifier": "every contact point in the plane, 2D and 3D", "why_tests_cant": "Holds for a continuum of real parameter values; a test samples finitely many of them.", "anchors": ["FiniteDeformation/RigidBody.C: RigidPlane::evalGap"]}
{"id": "C39", "title": "Every slave node gets exactly one Lagrange multiplier", "statement": "Adding contact multipliers creates one new unknown per distinct slave node, never two for the same node, and never reuses an existing node number.", "quantifier": "every set of contact patches and node lists", "why_tests_cant": "Unbounded node lists with sharing.", "anchors": ["FiniteDeformation/SIMContact.C: addLagrangeMultipliers"]}
{"id": "C40", "title": "Beam element stiffness has exactly the physical null space and non-negative energy", "statement": "The two-noded beam stiffness is symmetric, gives zero force for all six rigid-body motions, and non-negative energy for every deformation, with and without shear deformation and shear-centre offset.", "quantifier": "every positive stiffness, length, shear parameter and offset, every nodal displacement", "why_tests_cant": "Holds for a continuum of real parameter values; a test samples finitely many of them.", "anchors": ["Beam/ElasticBeam.C: getMaterialStiffness, shearTransform"]}
{"id": "C41", "title": "Eccentricity transformation is an exact congruence", "statement": "Transforming a beam matrix and vector with end eccentricities equals the congruence with the rigid-arm kinematics, so symmetry and energy are preserved and forces stay statically equivalent.", "quantifier": "every 12x12 matrix, every vector, every eccentricity", "why_tests_cant": "Holds for a continuum of real parameter values; a test samples finitely many of them.", "anchors": ["Beam/ElasticBeam.C: eccTransform (matrix and vector), transform"]}
{"id": "C42", "title": "Beam and bar mass matrices carry the total mass without coupling directions", "statement": "The lumped and consistent mass matrices of beams and bars are symmetric, give the total mass for every rigid translation and produce no force transverse to the acceleration.", "quantifier": "every density, area, length and inertia", "why_tests_cant": "Holds for a continuum of real parameter values; a test samples finitely many of them.", "anchors": ["Beam/ElasticBeam.C: getMassMatrix", "Beam/ElasticBar.C: evalInt"]}
{"id": "C43", "title": "A constant property function is equivalent to the constant property", "statement": "Giving a beam cross-section property as a function of position that happens to be constant yields the same stiffness and inertia as giving the constant.", "quantifier": "every property value and every position", "why_tests_cant": "Holds for a continuum of real parameter values; a test samples finitely many of them.", "anchors": ["Beam/BeamProperty.C: eval (both), evalRho"]}
{"id": "C44", "title": "Bar tangent stiffness is the derivative of the bar internal force", "statement": "For every strain measure the assembled tangent (material + geometric) is the exact derivative of the internal force, the force is self-equilibrated, and in a buckling analysis the separate geometric matrix is invariant to rigid translation.", "quantifier": "every end position with positive length, every strain measure", "why_tests_cant": "Holds for a continuum of real parameter values; a test samples finitely many of them.", "anchors": ["Beam/ElasticBar.C: evalInt, getStrain"]}
{"id": "C45", "title": "Cable strain and curvature variations are exact derivatives", "statement": "The first and second variations of axial strain and curvature used for the cable tangent are the derivatives of the strain and curvature.", "quantifier": "every configuration with non-degenerate curvature, every pair of nodal directions", "why_tests_cant": "Holds for a continuum of real parameter values; a test samples finitely many of them.", "anchors": ["Beam/ElasticCable.C: evalInt"]}
{"id": "C46", "title": "Cable end moments and their load stiffness are consistent at both ends", "statement": "An end moment is represented by a statically equivalent couple, and the load correction stiffness is minus the derivative of that couple at either end of the cable; the symmetrised variant is its symmetric part.", "quantifier": "every deformed end direction, both ends", "why_tests_cant": "Holds for a continuum of real parameter values; a test samples finitely many of them.", "anchors": ["Beam/ElasticCable.C: evalBou"]}
{"id": "C47", "title": "Plate formulations differ only by the Gaussian curvature term", "statement": "The three plate stiffness versions are related by K1 = (1-nu)*K2 + nu*K3 for an isotropic plate, so they give the same energy for all clamped plates.", "quantifier": "every basis, thickness, E and nu", "why_tests_cant": "Holds for a continuum of real parameter values; a test samples finitely many of them.", "anchors": ["Linear/KirchhoffLovePlate.C: evalK1, evalK2, formBmatrix, formCmatrix"]}
{"id": "C48", "title": "Linear shell strains vanish for rigid-body motions", "statement": "Membrane and bending strains of the linear shell element vanish for every infinitesimal rigid-body motion of the patch.", "quantifier": "every surface geometry, every number of nodes", "why_tests_cant": "Arbitrary surfaces and bases.", "anchors": ["Shell/KirchhoffLoveShell.C: formBmatrix, getMetrics"]}
{"id": "C49", "title": "Nonlinear shell tangent is the derivative of its internal forces", "statement": "The first and second variations of membrane strain and curvature used by the nonlinear shell are the exact derivatives of strain and curvature, and recovered stress resultants vanish for rigid rotations.", "quantifier": "every surface geometry and deformation", "why_tests_cant": "Arbitrary surfaces and deformations.", "anchors": ["Shell/NLKirchhoffLoveShell.C: evalKandS, evalSol"]}
{"id": "C50", "title": "Shell surface stresses are statically equivalent to the stress resultants", "statement": "The top and bottom surface stresses integrate back to the membrane forces and bending moments they are derived from, and each output component carries the name of what it contains.", "quantifier": "every thickness, membrane force and moment", "why_tests_cant": "Holds for a continuum of real parameter values; a test samples finitely many of them.", "anchors": ["Shell/KirchhoffLoveShell.C: evalSol, getField2Name"]}
{"id": "C51", "title": "Built-in analytical stress fields satisfy equilibrium and their boundary conditions", "statement": "The reference stress fields for the hole, cantilever, curved beam and pipe problems satisfy the equilibrium equations in the interior and the traction conditions of the problem they claim to solve.", "quantifier": "every point of the domain, every geometry and load parameter", "why_tests_cant": "Holds for a continuum of real parameter values; a test samples finitely many of them.", "anchors": ["Linear/AnalyticSolutions.C: Hole, CanTS, CanTM, CurvedBeam, Pipe"]}
{"id": "C52", "title": "Built-in analytical plate solutions satisfy the plate equation", "statement": "The moments of the reference plate solutions derive from their displacement field, and satisfy the plate equilibrium equation with the applied load, term by term for the Navier series.", "quantifier": "every point, every series length, every load type", "why_tests_cant": "Holds for a continuum of real parameter values; a test samples finitely many of them.", "anchors": ["Linear/AnalyticSolutions.C: NavierPlate, CircularPlate, ThinPlateSol"]}
{"id": "C53", "title": "Local coordinate systems are right-handed and orthonormal", "statement": "Every local coordinate system offered for stress output (cylindrical, cylindrical with spherical ends) is orthonormal at every point where it is defined, so stress invariants are independent of the output system.", "quantifier": "every point", "why_tests_cant": "Holds for a continuum of real parameter values; a test samples finitely many of them.", "anchors": ["Elasticity/LocalSystems.C: CylinderCS::getTmat, CylinderSphereCS::getTmat"]}
{"id": "C54", "title": "Expanding nodal vectors preserves all existing components", "statement": "When projected analytical fields are padded with extra components, every original nodal component is kept and the new components are zero.", "quantifier": "every number of nodes and components", "why_tests_cant": "All sizes; the failure involves aliasing for specific node positions.", "anchors": ["main_LinEl.C: expandNodalVec"]}
{"id": "C55", "title": "A data check never solves anything", "statement": "With the data-check option the program performs no assembly or equation solving, whatever other analysis options are given; each analysis option selects the analysis it documents.", "quantifier": "every combination of analysis options", "why_tests_cant": "Option combinations are not enumerated by the regression tests.", "anchors": ["main_LinEl.C: main"]}
{"id": "C56", "title": "Rigid and nodal couplings connect what the input says", "statement": "Every nodal coupling of the input becomes exactly one constraint that makes the slave the weighted sum of all masters given for it, however these are spread over lines and elements; every rigid coupling joins all boundaries of its slave set to the master point of that set and to no other; a coupling that can not be made is reported.", "quantifier": "every set of coupling elements and lines, every list of properties, masters, discrete points and patches", "why_tests_cant": "Depends on the order and grouping of the input, of which there are infinitely many; the tests contain a few simple couplings.", "anchors": ["Elasticity/SIMRigid.C: parseRigid, parseCouplings, addRigidMPCs, addGeneralCouplings"]}
{"id": "C57", "title": "Graded knot refinement yields a valid symmetric knot vector", "statement": "The midpoint-focused refinement yields strictly increasing knots inside (0,1), symmetric about the midpoint.", "quantifier": "every refinement level", "why_tests_cant": "All levels.", "anchors": ["Linear/SIMLinElBeamC1.C: parseXi"]}
{"id": "C58", "title": "Analytical boundary conditions are resolved completely and without double ownership", "statement": "After preprocessing a plate model no analytical Dirichlet code is left unresolved; each solved code refers to the field of its kind, and every borrowed function is released exactly once.", "quantifier": "every list of boundary properties", "why_tests_cant": "Unbounded lists of properties.", "anchors": ["Linear/SIMLinElKL.C: preprocessA", "Shell/SIMKLShell.C: ~SIMKLShell, clearProperties"]}
{"id": "C59", "title": "Line loads on element borders are applied exactly once", "statement": "A line load along an interior grid line is picked up by exactly the elements whose border lies in the loaded range, once from either side, so that the halved contributions add to the full load.", "quantifier": "every grid and every line position and range", "why_tests_cant": "Arbitrary grids.", "anchors": ["Shell/SIMKLShell.C: ElmBorderChk::maskBorder", "Linear/KirchhoffLovePlate.C: evalInt (interface)"]}
{"id": "C60", "title": "Boundary reaction sums address the boundary they are asked for", "statement": "The reaction force reported for a boundary section is the sum over the nodes of that section, for every number of sections.", "quantifier": "every number of boundary sections", "why_tests_cant": "All sizes.", "anchors": ["Elasticity/SIMElasticity.C: getBoundaryReactions, printBoundaryForces"]}
{"id": "C61", "title": "Beam element matrices are always used as the type they were created as", "statement": "Whatever the history of solution modes, the element matrix container of a beam element is accessed with the type it was created with.", "quantifier": "every sequence of mode changes and element evaluations", "why_tests_cant": "Unbounded histories of mode changes; misuse is undefined behaviour that may go unnoticed.", "anchors": ["Beam/ElasticBeam.C: getLocalIntegral, getLocalAxes"]}
{"id": "C62", "title": "Command line and input file formulation settings override each other predictably", "statement": "The last formulation setting given wins, the polynomial order given with it is kept, and the resulting option list always has the formulation first and the order second.", "quantifier": "every sequence of formulation settings", "why_tests_cant": "Unbounded option sequences.", "anchors": ["NLargs.C: setFormulation, parseArg, parseFormulation"]}
{"id": "C63", "title": "Evaluating a material at one point has no effect on other evaluations", "statement": "The result of a constitutive evaluation depends only on the material data and the point, not on which points were evaluated before (the evaluation overwrites a stored Poisson's ratio internally).", "quantifier": "every sequence of earlier evaluations", "why_tests_cant": "Unbounded call histories.", "anchors": ["Elasticity/LinIsotropic.C: LinIsotropic::evaluate (both overloads)"]}
{"id": "C64", "title": "Stiffness queries agree with the constitutive evaluation", "statement": "The Young's modulus and plate stiffness reported by a material are those used when it evaluates stresses at the same point.", "quantifier": "every material definition (constant, function, aging function, field) and point", "why_tests_cant": "Quantifies over all ways of defining the stiffness.", "anchors": ["Elasticity/LinIsotropic.C: getStiffness, getPlateStiffness, evaluate"]}
{"id": "C65", "title": "Property functions of a texture material stay alive and belong to their range", "statement": "Each range of a texture material has its own property functions, which stay valid as long as the material is used.", "quantifier": "every list of ranges, every sequence of lookups", "why_tests_cant": "Lifetime errors depend on the whole history of lookups and are silent in many runs.", "anchors": ["Elasticity/IsotropicTextureMat.C: parse, findMaterial", "Elasticity/LinIsotropic.C: ~LinIsotropic, parse"]}
{"id": "C66", "title": "The load gradient of the arc-length method is kept apart from the load", "statement": "In an arc-length step the derivative of the body and surface load with respect to the load level is accumulated in the vector the solver reads it from, and not in the residual.", "quantifier": "every load state and element", "why_tests_cant": "A wrong slot still gives a converging solution path in simple tests.", "anchors": ["FiniteDeformation/NonlinearElasticityTL.C: evalInt", "FiniteDeformation/NonlinearElasticityUL.C: evalInt", "Elasticity/ElasticBase.C: setMode"]}
{"id": "C67", "title": "Total and updated Lagrangian formulations give the same internal forces", "statement": "At every integration point, the nodal internal forces computed in the deformed configuration from the Cauchy stress equal those computed in the undeformed configuration from the second Piola-Kirchhoff stress, when the two stresses belong to the same state.", "quantifier": "every invertible deformation gradient, stress, basis and number of nodes; plane, solid and axisymmetric", "why_tests_cant": "Arbitrary deformation, stress and basis; a comparison of two formulations.", "anchors": ["FiniteDeformation/NonlinearElasticityTL.C: evalInt, kinematics", "FiniteDeformation/NonlinearElasticityUL.C: evalInt"]}
{"id": "C68", "title": "Mass and body loads do not depend on the deformation", "statement": "The mass of an element and the resultant of its body forces given per unit mass are those of the undeformed element, whatever the deformation and the formulation.", "quantifier": "every deformation gradient, density and body force", "why_tests_cant": "Arbitrary deformation; holds for a continuum of states.", "anchors": ["FiniteDeformation/NonlinearElasticityUL.C: evalInt", "FiniteDeformation/NonlinearElasticityTL.C: evalInt"]}
{"id": "C69", "title": "F-bar volume field takes the sampled values at the sampling points", "statement": "The volume change field that the F-bar element interpolates from its sampling points has, at each sampling point, exactly the value that was sampled there, for every accepted number of sampling points.", "quantifier": "every number of sampling points per direction, every set of sampled values", "why_tests_cant": "Only visible for particular integration orders that regression tests do not use.", "anchors": ["FiniteDeformation/NonlinearElasticityFbar.C: FbarElmData::init, evalInt"]}
{"id": "C70", "title": "Mixed pressure is work-conjugate to the averaged volume change", "statement": "In the mixed formulation with discontinuous pressure, the virtual work of the mixed pressure on the pointwise divergence over the deformed volume equals that of the material mean stress on the divergence formed with the modified gradients, for every virtual displacement.", "quantifier": "every number of integration points, pressure modes and nodes, every virtual displacement, plane, axisymmetric and solid", "why_tests_cant": "An algebraic identity over all deformations and pressure orders.", "anchors": ["FiniteDeformation/NonlinearElasticityULMX.C: finalizeElement"]}
{"id": "C71", "title": "Contact forces are unaffected by a common translation of body and slave surface", "statement": "Translating the rigid body and the slave surface by the same vector leaves gaps and contact forces unchanged, and the contact tangent gives no force for such a translation.", "quantifier": "every contact point, normal, weights, penalty parameter and translation", "why_tests_cant": "Holds for a continuum of real parameter values; a test samples finitely many of them.", "anchors": ["FiniteDeformation/MortarContact.C: accResAndTangent", "FiniteDeformation/RigidBody.C: evalGap, geometricStiffness"]}
{"id": "C72", "title": "Geometric stiffness of a beam", "statement": "The geometric stiffness matrix of the beam element is symmetric, gives no force for rigid translations, turns the axial force with a rigid rotation, and is non-negative in tension.", "quantifier": "every axial force, length, shear flexibility and end displacement", "why_tests_cant": "Algebraic identity over all displacements and section data.", "anchors": ["Beam/ElasticBeam.C: getGeometricStiffness"]}
{"id": "C73", "title": "Bending stiffness and rotary inertia use the same second moment of area", "statement": "In each bending plane of a beam the bending stiffness and the rotary inertia are the elastic modulus and the density times one and the same second moment of area.", "quantifier": "every section with constant properties, every length and material", "why_tests_cant": "Only visible for sections whose two second moments differ, and then only as a small shift of frequencies.", "anchors": ["Beam/ElasticBeam.C: getMaterialStiffness, getMassMatrix", "Beam/BeamProperty.C: eval"]}
{"id": "C74", "title": "Lumped beam masses stay diagonal and keep the mass", "statement": "A lumped mass matrix transformed to global axes and to eccentric nodes stays diagonal, keeps the total mass and rotary inertia, and its diagonal equals that of the exact transformation.", "quantifier": "every lumped matrix, orthogonal axes and eccentricities", "why_tests_cant": "Holds for a continuum of axes and eccentricities.", "anchors": ["Beam/ElasticBeam.C: finalizeElement"]}
{"id": "C75", "title": "Cable axes are orthonormal and degenerate elements are reported", "statement": "Whenever local axes are computed for a cable they are unit vectors forming a right-handed orthogonal system with the tangent, the normal pointing to the centre of curvature; tangents of ordinary length always get axes, and a zero tangent is reported as an error.", "quantifier": "every tangent vector and second derivative, including straight and degenerated elements", "why_tests_cant": "Depends on tolerance branches over a continuum of vectors; tests try a few directions.", "anchors": ["Beam/ElasticCable.C: evalLocalAxes"]}
{"id": "C76", "title": "Cable section forces do not depend on the parametrisation", "statement": "The axial force and bending moment reported for a cable are EA times the Green strain and EI times the change of curvature, whatever parameter is used along the cable.", "quantifier": "every deformation and every parametrisation of the curve", "why_tests_cant": "Holds for a continuum of real parameter values; a test samples finitely many of them.", "anchors": ["Beam/ElasticCable.C: evalSol"]}
{"id": "C77", "title": "Plate shear forces balance the moments", "statement": "The shear forces reported for a plate are the divergence of the reported bending moments, in global axes and in a local coordinate system.", "quantifier": "every deflection, basis, material and local coordinate system", "why_tests_cant": "Holds for a continuum of deflections and axes; a test samples a few, usually with symmetric transformations.", "anchors": ["Linear/KirchhoffLovePlate.C: evalSol"]}
{"id": "C78", "title": "Plate and shell loads and mass are consistent", "statement": "The nodal loads of pressure, own weight and line loads sum up to the load itself, which is also the recorded load sum; the mass matrix gives the kinetic energy of the mass rho*t per area.", "quantifier": "every basis with partition of unity, load, density, thickness and direction", "why_tests_cant": "Holds for a continuum of real parameter values and for every number of nodes.", "anchors": ["Elasticity/KirchhoffLove.C: getPressure, formBodyForce, formMassMatrix", "Linear/KirchhoffLovePlate.C: evalInt"]}
{"id": "C79", "title": "Plate output fields match their names and number", "statement": "The secondary solution of a plate has as many values as announced, in the order of the field names, in every mode and formulation.", "quantifier": "every formulation, dimension, solution mode and option", "why_tests_cant": "The combination of options, modes and formulations is not covered by regression tests.", "anchors": ["Linear/KirchhoffLovePlate.C: evalSol, getNoFields, getField2Name", "Elasticity/KirchhoffLove.C: getIntegrandType"]}
{"id": "C80", "title": "Shell strains are components in an orthonormal tangent system", "statement": "The transformation that a shell applies to its membrane and bending strains gives the components of the same tensor in an orthonormal system in the tangent plane, whatever the (non-orthogonal, non-unit) parametric tangents are; so material laws for Cartesian components may be applied.", "quantifier": "every pair of linearly independent tangents and every symmetric surface tensor", "why_tests_cant": "Holds for a continuum of skew parametrisations; tests use a few meshes, mostly orthogonal.", "anchors": ["Shell/KirchhoffLoveShell.C: getMetrics, formBmatrix"]}
{"id": "C81", "title": "Shell section forces in a local coordinate system keep their invariants", "statement": "When shell section forces are reported in a local coordinate system, the trace and determinant of the force and moment tensors, hence principal and von Mises stresses, are those of the global section forces.", "quantifier": "every section force state, surface tangents and local system", "why_tests_cant": "Depends on the orientation of the local system with respect to the surface, of which there is a continuum.", "anchors": ["Shell/KirchhoffLoveShell.C: evalSol"]}
{"id": "C82", "title": "Shell energy norms are the energies they are named after", "statement": "The squared energy norm of a shell solution is the strain energy of its stiffness matrix, the norm of the projected solution and of the difference are those of the compliance form, and number and names of the norms agree with the values computed.", "quantifier": "every displacement, projected section force field and number of projections", "why_tests_cant": "Agreement of two independent code paths over all solutions.", "anchors": ["Shell/KirchhoffLoveShell.C: KirchhoffLoveShellNorm"]}
{"id": "C83", "title": "Shell edge tractions do the work of the traction", "statement": "The nodal loads from an edge traction on a shell do, for every nodal displacement, the work of the traction on the interpolated displacement, and sum up to the traction resultant.", "quantifier": "every basis, traction vector and nodal displacement", "why_tests_cant": "Holds for all bases and tractions.", "anchors": ["Shell/KirchhoffLoveShell.C: evalBou"]}
{"id": "C84", "title": "The built-in thermal pipe solution belongs to a displacement", "statement": "The strains that follow by Hooke's law with thermal expansion from the reference stresses and temperature of the heated pipe have zero axial strain and satisfy the compatibility condition, so that a finite element solution of the same problem converges to these stresses.", "quantifier": "every pair of radii and temperatures, every elastic constants, every point of the wall", "why_tests_cant": "Holds for a continuum of real parameter values; the regression tests use few of them.", "anchors": ["Linear/AnalyticSolutions.C: Pipe"]}
{"id": "C85", "title": "Boundary moments refer to the middle of the boundary", "statement": "The moment of a boundary section is taken about a reference point that, for nodes on a straight line, is the middle between the two outermost nodes, wherever the line is and however the nodes are distributed and ordered.", "quantifier": "every set of nodes on a line, every position of the line, every order of the nodes", "why_tests_cant": "Holds for a continuum of positions and all node orders.", "anchors": ["Elasticity/SIMElasticity.C: preprocessB"]}
{"id": "C86", "title": "Every region of a plate or shell has the thickness and material given for it", "statement": "When the interior of a region is integrated, the material and the thickness (constant or function) are those of the material the input gives for that region, whatever the number and order of materials and whichever region was integrated before.", "quantifier": "every list of materials with thicknesses, every property codes and every order of regions", "why_tests_cant": "Depends on the combination of several materials, codes and assembly orders; the tests have one material.", "anchors": ["Shell/SIMKLShell.C: parse, initMaterial", "Elasticity/KirchhoffLove.C: setThickness"]}
{"id": "C87", "title": "Every patch of a plate or shell carries the pressures given for it", "statement": "When a patch is integrated, the pressures acting are exactly those given in the input for the sets it belongs to, each once, and none of those of the patches integrated before.", "quantifier": "every list of pressure definitions, properties and patches, in every order", "why_tests_cant": "Depends on the history of patches and on combinations of sets.", "anchors": ["Shell/SIMKLShell.C: parse, initBodyLoad", "Elasticity/KirchhoffLove.C: setPressure"]}
{"id": "C88", "title": "Reading the input again leaves no reference to released objects", "statement": "When the properties of a plate or shell model are cleared and the input is read again, as after every adaptive mesh refinement, the simulator only uses function and material objects of the last reading.", "quantifier": "every input, every number of readings", "why_tests_cant": "Use of released memory shows up only for particular inputs and histories, and not reliably.", "anchors": ["Shell/SIMKLShell.C: clearProperties, parse, initMaterial", "Elasticity/NonlinearDriver.C: adaptMesh"]}
{"id": "C89", "title": "Point loads act where the input puts them and are accounted for consistently", "statement": "Each point load of a plate, shell, beam or bar is put on the node or element at the given point, or an error is reported. The right-hand side receives the value of the load at its node, or distributed by the basis functions, in the given direction; the reported load sums equal the sums over the load vector; the load gradient used by the arc-length driver is the time derivative of the load vector; and the external energy of the point loads is the load vector times the displacement. Renumbering moves the loads with their nodes.", "quantifier": "all lists of point loads, directions, load functions, basis functions, displacements and point-location results", "why_tests_cant": "The three simulators implement loads, sums, gradients and energies in separate loops; a test has one load and compares one number.", "anchors": ["Shell/SIMKLShell.C:preprocessB", "Shell/SIMKLShell.C:assembleDiscreteTerms", "Shell/SIMKLShell.C:externalEnergy", "Linear/SIMLinElBeamC1.C:assembleDiscreteTerms", "Beam/SIMElasticBar.C:preprocessB", "Beam/SIMElasticBar.C:assembleDiscreteTerms", "Beam/SIMElastic1D.C:findLoadPoint", "Elasticity/KirchhoffLove.C:evalPoint", "Elasticity/ElasticBase.C:evalPoint"]}
{"id": "C90", "title": "Material stiffness routines integrate the second variation of the strain energy", "statement": "The routines which accumulate the material stiffness matrix of nonlinear elements add B^T D B times the weight, for the strain-displacement matrix of the formulation and in the component order used by the materials; a symmetric element matrix stays symmetric. The internal forces of the tensorial total Lagrangian element are the stresses times the strain variation.", "quantifier": "all shape function gradients, deformation gradients, constitutive matrices, pairs of nodes and previous contents of the element matrix", "why_tests_cant": "The routines are written out component by component; a test with an isotropic material cannot see a component taken from the wrong place.", "anchors": ["FiniteDeformation/accKM.f:accKM2D, accKM3D", "FiniteDeformation/accKMx.f:accKMx2D, accKMx3D", "FiniteDeformation/stiff_TL.f:stiff_TL2D, stiff_TL3D, stiff_TL2D_isoel, stiff_TL3D_isoel", "FiniteDeformation/NonlinearElasticity.C:evalInt"]}
{"id": "C91", "title": "Superelements keep their own finite element model, materials and result blocks", "statement": "A superelement is linked to the finite element model read under its name, its stresses are evaluated with the materials of its own patches, all models read are released, and in the result file each field of each superelement is written to a block of its own which is listed under this field.", "quantifier": "all sequences of superelement definitions, models with any number of patches and materials, and numbers of fields", "why_tests_cant": "Material mix-ups and wrong block lists need several different superelements in one model; memory that is not released is not seen by comparing results.", "anchors": ["Linear/SIMLinElSup.C:parse", "Linear/SIMLinElSup.C:preprocessB", "Linear/SIMLinElSup.C:writeGlvS1", "Linear/SIMLinElSup.C:writeGlvS2", "Linear/SIMLinElSup.C:writeFields", "Linear/SIMLinElSup.C:getMyProblem"]}
{"id": "C92", "title": "The dynamics driver saves the right steps and reports every failure", "statement": "The saved steps are numbered consecutively and are the first steps at or after each save time, the final one included; only converged steps are saved; a failing solution, projection or output ends the simulation with a status which tells what failed; restart data are written for the steps asked for; the stop time on the command line overrides the input; and a projection that is asked for is computed.", "quantifier": "every sequence of steps, step times, save intervals, stop times and outcomes of the solver and output calls", "why_tests_cant": "Depends on the history of saved times and on combinations of failures, which no regression test triggers.", "anchors": ["Elasticity/NewmarkDriver.h: solveProblem", "Linear/DynamicDriver.C: dynamicSim", "Linear/MultiLoadCaseDriver.C: mlcSim", "Linear/ModalDriver.C: modalSim"]}
{"id": "C93", "title": "Output files are named after the input file", "statement": "The geometry, solution, eigenvector, grid, restart and superelement files are written to the path of the input file (or of the result file, if given) with the extension exchanged, whatever the directory, the length and the extension of the name are; the names printed are those of the files; restart files do not overwrite existing files.", "quantifier": "every input file name, every selection of output files, every set of existing files", "why_tests_cant": "The set of file names is infinite; tests run in one directory with names of one form.", "anchors": ["main_LinEl.C: main", "main_NonLinEl.C: runSimulator", "main_ShellEl.C: runSimulator", "Linear/DynamicDriver.C: dynamicSim", "Linear/ModalDriver.C: modalSim"]}
{"id": "C94", "title": "Programs run the simulator asked for and return its status", "statement": "The options select the simulator and its flags, the simulator has all vectors it uses, and the exit status is zero exactly if everything asked for succeeded. A coupled solver assembles each simulator once into a shared system, writes the results of each simulator on its own geometry, and leaves no references to the result file.", "quantifier": "every combination of options and of outcomes of the library calls, every number of coupled simulators", "why_tests_cant": "Exit status and failure paths need failing input or output, and combinations of options that are not tested together.", "anchors": ["main_NonLinEl.C: main, runSimulator", "main_ShellEl.C: main, runSimulator", "main_LinEl.C: main", "Linear/SIMmcStatic.C: solveStatic", "Linear/MultiLoadCaseDriver.C: mlcSim", "Linear/DynamicDriver.C: dynamicSim"]}
{"id": "C95", "title": "Finite deformation materials are those of the input", "statement": "Both input formats give the same isotropic material for the same data; the parameters of a plastic material end up where the plasticity algorithm reads them, for every yield function; each material with a positive code is connected to its own property; the default material is well-defined; and a history-dependent material is only combined with a projection that uses integration point values.", "quantifier": "every list of materials in either input format, every subset of attributes, every formulation", "why_tests_cant": "Number, order and attributes of the materials are unbounded; a test checks one input file in one format.", "anchors": ["FiniteDeformation/SIMFiniteDefEl.C: parse, parseMaterial, preprocessB", "FiniteDeformation/PlasticMaterial.C: PlasticMaterial"]}
{"id": "C96", "title": "Solid output fields match their names and number", "statement": "For every solid model the number of secondary solution values per point is the number announced, the value at each place is the one its name says, in the local system if one is given, for the finite element and for the analytical solution; names are different; displacement components are named after their directions; and the principal directions returned for a number of points are those of these points.", "quantifier": "every dimension, plane stress, plane strain or axial symmetry, stresses or strains, every material with internal variables, every number of points", "why_tests_cant": "Names and values are produced by different functions for a combinatorial set of options; a wrong label is not seen when numbers are compared.", "anchors": ["Elasticity/Elasticity.C: evalSol, evalSol2, getNoFields, getField1Name, getField2Name, getPrincipalDir", "FiniteDeformation/PlasticMaterial.C: getInternalVar", "FiniteDeformation/NeoHookeMaterial.C: getInternalVar"]}
{"id": "C97", "title": "Thermal strains produce the stresses and loads of thermoelasticity", "statement": "With a temperature field the stresses are those of Hooke's law for the strain minus the thermal strain, which is the expansion coefficient at the current temperature times the temperature difference, in one, two and three dimensions, plane stress, plane strain and axial symmetry. The load vector is such that the free thermal expansion is in equilibrium without stress, and together with the internal forces gives the resultant of these stresses.", "quantifier": "every temperature and initial temperature field, expansion function, admissible material, strain state, strain-displacement matrix and number of integration points", "why_tests_cant": "Errors which vanish for a Poisson's ratio of zero or only touch one component are not seen in a test with one configuration.", "anchors": ["Elasticity/LinearElasticity.C: parse, getThermalStrain, formInitStrainForces, evalInt", "Elasticity/Elasticity.C: evalSol", "Elasticity/LinIsotropic.C: getThermalExpansion"]}
{"id": "C98", "title": "Loads and materials of solid models act on the parts the input names", "statement": "In every assembly each boundary is loaded by the traction or pressure given for it and nothing else, the body force is gravity times density plus the body force function, models with loads are recognised as such, each patch has the material given for it, pressures and materials in the text formats act on the patches, faces and codes they name, and a constraint on a master point changes nothing but this point.", "quantifier": "every sequence of boundary properties with explicit and implicit tractions, every number of assemblies, every list of materials, pressures and patches", "why_tests_cant": "Wrong loads appear only for particular combinations and orders of boundary conditions, or from the second assembly on.", "anchors": ["Elasticity/SIMElasticity.C: initNeumann, initMaterial, parse, addConstraint", "Elasticity/Elasticity.C: getTraction, getBodyforce, haveLoads", "Elasticity/Elasticity.h: setTraction", "Elasticity/KirchhoffLove.C: getTraction, haveLoads", "Shell/SIMKLShell.C: initNeumann"]}
{"id": "C99", "title": "Bars, cables and beams have the cross sections and materials of the input", "statement": "Pipes, boxes and rectangles have the area, second moments of area, torsional constant and shear factors of the shape; given properties override the shape, and dependent properties follow; a table in a file gives the properties in its labelled lines, converted to SI units; the mass and stiffness of bars and cables are those of the given section and material; the shear modulus of beams follows from Poisson's ratio; nodal rotations are updated by the given part of the increment.", "quantifier": "every set of attributes, every radius, height, width and wall thickness, every table, every order of bar, cable and beam elements", "why_tests_cant": "The formulas hold for a continuum of dimensions, and the attributes can be combined freely; a test uses one section.", "anchors": ["Beam/BeamProperty.C: parse, parsePipe, parseBox, setConstant, readCSV", "Beam/SIMElasticBar.C: parse, initMaterial, getPrioritizedTags, updateRotations, getNodeRotation"]}
{"id": "C100", "title": "The linear driver condenses, solves and compares what the input asks for", "statement": "With a selected superelement exactly the sections of the other ones are ignored; the retained nodes are those of the retained sets, each once and in ascending order; internal displacements are recovered by the matrix of the last condensation, from a file next to the superelement file; the total reaction is the sum over all sections, and the solution fails exactly if a step of it fails; both input formats define the same analytical solution, which is compared to and applied as traction on the boundaries with its code.", "quantifier": "every list of tags, topology sets, superelement names, histories of condensations and recoveries, numbers of sections and analytical solutions", "why_tests_cant": "Depends on file names, overlapping sets and the history of calls; one test condenses one model once.", "anchors": ["Linear/SIMLinEl.h: parse, preprocessB, staticCondensation, recoverInternals, solveSystem, parseAnaSol", "Linear/SIMLinEl2D.C: parseDimSpecific", "Linear/SIMLinEl3D.C: parseDimSpecific"]}
{"id": "C101", "title": "Coupled elasticity solvers restart from their own state and number their output", "statement": "A state written to a restart file is restored from it, for every solver of a coupled simulation; an incomplete file is rejected; the steps at multiples of the save increment are saved with consecutive numbers; advancing a step keeps the previous solutions in order.", "quantifier": "every set of solvers, number of solution vectors, restart file, save increment and step", "why_tests_cant": "Restart of a coupled simulation with several elasticity solvers is a property of histories and combinations, for which no test exists.", "anchors": ["Elasticity/SIMElasticityWrap.C: serialize, deSerialize, saveStep, advanceStep"]}
{"id": "C102", "title": "The norms of nonlinear simulations are those they are printed as", "statement": "The energy is the integral of the strain energy density, the volume the one of the deformed body, also with internal volume change modes; the squared stress norm is the sum of the deviatoric and three times the pressure norm, and the squared von Mises norm is three halves of the deviatoric one; each number is printed with the name of the quantity; norms are computed unless the input switches them off or the mesh is adapted.", "quantifier": "every number of integration points and every stress, deformation and energy there, all formulations, every sequence of input tags", "why_tests_cant": "A wrong label or factor in a printed norm cannot be seen without the independent identity between the norms, which must hold for every state.", "anchors": ["FiniteDeformation/NonlinearElasticityUL.C: ElasticityNormUL::evalInt, evalSol", "FiniteDeformation/NonlinearElasticityULMX.C: ElasticityNormULMX::finalizeElement", "Elasticity/NonlinearDriver.C: printNorms, parse, solveStep"]}
{"id": "C103", "title": "Boundary conditions from the analytical solution are applied to solid models where the input asks for them", "statement": "Each boundary for which the exact displacements are asked for gets them, each one for which the exact tractions are asked for gets those of the exact stresses unless a traction is given for it; other boundary conditions are not changed, preprocessing twice is the same as once, and however often the input is read again the functions of the analytical solution are not deleted twice.", "quantifier": "every list of boundary properties, analytical solution and sequence of reading the input and clearing the properties", "why_tests_cant": "A second boundary set with analytical displacements, or a refinement which reads the input again, occurs in few models; a missing condition gives a solution which is wrong, not an error.", "anchors": ["Elasticity/SIMElasticity.C: preprocessA, clearProperties, ~SIMElasticity"]}
{"id": "C104", "title": "The nonlinear driver transfers the solution to refined meshes, saves the initial state and prints the extreme values of each step", "statement": "After a refinement the simulation goes on with the transferred solution, exactly if all steps of the refinement were successful; the initial state is saved exactly if the input asks for results of several steps and does not skip it; the extreme values given with a step are those of the results of this step.", "quantifier": "every number of patches, solution vectors, refinement, option and history of steps", "why_tests_cant": "Depends on the number of patches and on the whole history of steps; a test runs one model with one patch.", "anchors": ["Elasticity/NonlinearDriver.C: adaptMesh, parse, solveProblem", "Elasticity/LinearElasticity.C: setMode", "FiniteDeformation/NonlinearElasticityUL.C: setMode", "FiniteDeformation/NonlinearElasticityTL.C: setMode", "Elasticity/Elasticity.C: evalSol2, initMaxVals"]}
{"id": "C105", "title": "Contact bodies are placed, guided and loaded as the input says", "statement": "A rigid contact body has the radius and the points given for it. Its master points are new nodes which are shared by all patches of its slave boundary, and the conditions given for the body hold for exactly these nodes in all of these patches. In each step the points are at their initial position plus the displacement of their node and prescribed movements have the value of their function. Each body with a positive penalty parameter contributes the gap and the contact forces of the chosen formulation, and its total reaction is the sum over its nodes under a name of its own.", "quantifier": "all inputs with any number of bodies, tags, patches and points, all displacement vectors and times", "why_tests_cant": "The result depends on the order of the tags and on the number of slave sets and dimensions, a combination of inputs which cannot be enumerated.", "anchors": ["FiniteDeformation/SIMContact.C:SIMContact::parseContactTag", "FiniteDeformation/SIMContact.C:SIMContact::addContactElms", "FiniteDeformation/SIMContact.C:SIMContact::preprocessContact", "FiniteDeformation/SIMContact.C:SIMContact::printBodyReactions", "FiniteDeformation/RigidBody.C:RigidBody::update"]}
{"id": "C106", "title": "Beam and plate models from text and from tags are those of the input", "statement": "In a beam or plate model each region has the material and the thickness given for its property code, whichever regions were integrated before, and without codes the first material. Each point load and each pressure of the input acts, on exactly the patches it is given for. The text format and the tag format define the same model from the same data.", "quantifier": "all lists of materials, loads and pressures, all property codes and all orders of regions", "why_tests_cant": "The outcome depends on the history of regions and on combinations of omitted values; the tests have one material and one section of each kind.", "anchors": ["Linear/SIMLinElBeamC1.C: parse, initMaterial, initBodyLoad", "Shell/SIMKLShell.C: parse"]}
{"id": "C107", "title": "The analytical plate solution belongs to the model and the load of the input", "statement": "The analytical solution of a rectangular or circular plate which a model is compared with has the stiffness of the plate of the model and the load (pressure, point load or partial load) which the input describes, in both input formats. The first definition is kept.", "quantifier": "all values of the plate and load parameters, all orders of definitions, both formats", "why_tests_cant": "Depends on the order of definitions and on which of several parameters are given.", "anchors": ["Linear/SIMLinElKL.C: parseAnaSol", "Linear/AnalyticSolutions.C: NavierPlate"]}
{"id": "C108", "title": "A beam element is in equilibrium with its loads and consistent in every position", "statement": "For every position of a beam element, eccentricity of its ends and displacement, the stiffness gives the virtual work of the section forces for the displacements of its ends in its own axes, the force vector is the load minus the internal forces of the same stiffness, the weight does the right virtual work in every translation, distributed loads from the input act on the element, and the tangent has the geometric stiffness of the axial force. The error norms are the integrals of the squares of the differences and zero exactly for the exact solution.", "quantifier": "all cross sections, lengths, orientations, eccentricities, displacements and gravitation vectors, and all solution modes", "why_tests_cant": "A test takes one beam in one position; the identities hold for all of them or depend on combinations of eccentricity, mode and load.", "anchors": ["Beam/ElasticBeam.C: evalInt, finalizeElement, parseBeamLoad, ElasticBeamNorm"]}
{"id": "C109", "title": "Printed norms and error estimates are those of their labels", "statement": "Every norm, relative error, effectivity index and section force that a linear simulation prints is the integral its label names, related to the norm it says, for solids with any number of section forces, plates, thin beams, shells and beams in space, with and without analytical solution; no value outside of the computed ones is read. The norms of the projected analytical solution are evaluated whenever there is one, and the printed error estimate of a section force is an upper bound of its error if the element contributions are.", "quantifier": "all values of the norms, numbers of section forces and projections, with and without analytical solution", "why_tests_cant": "The position of a value depends on the kind of model, the analytical solution and the number of section forces; a test compares the text of one model.", "anchors": ["Elasticity/SIMElasticity.C: Elastic::printNorms, haveAnaSol, getVolumeIndex", "main_LinEl.C: main", "Shell/SIMKLShell.C: printNormGroup", "Linear/SIMLinElKL.C: haveAnaSol, getVolumeIndex", "Linear/SIMLinElBeamC1.C: haveAnaSol"]}
{"id": "C110", "title": "The options on the command line have the effect they are documented with, in any order", "statement": "In the nonlinear and the shell program each setting is the last one given on the command line, or the default, wherever the input file stands among the options; options override what an XML input file says, even if they stand in front of it. Unknown arguments behind the input file are ignored. The input file is the argument which is no option. The number of digits asked for is used, adaptivity goes with the refinable discretization, the result data base has each result once, and restart, geometry and solution files are named after the input file.", "quantifier": "all command lines of any length with options of the programs and of the library in any order and number, all input file names", "why_tests_cant": "The arguments may be given in arbitrary order and number, the command line is read twice for XML files and once for others; tests use a few fixed command lines.", "anchors": ["main_NonLinEl.C: main, runSimulator", "main_ShellEl.C: main, runSimulator"]}
{"id": "C111", "title": "Contact forces of the whole boundary are in balance and follow from the gaps", "statement": "The nodal areas and gaps of a contact boundary are those of all its elements together: the areas add up to its area, a uniform gap is found in every node, and moving both bodies together changes no gap. The contact forces of all elements do the virtual work of the penalty pressure over the nodal gaps, are zero if no gap is closed and are in balance. Their change with the displacements is that of the system matrix as long as no node opens or closes, and nodes without area take no part. The print-out tells of every node what has happened to it, the closest open node and the number of active ones.", "quantifier": "all numbers of elements, nodes and integration points, all connectivities, interpolation functions, weights, gaps and displacements, all histories of the active set", "why_tests_cant": "A test has one mesh and one load step; that the sums over elements sharing nodes agree for arbitrary meshes, and the balance of forces, is a statement about all of them.", "anchors": ["FiniteDeformation/MortarContact.C: MortarMats::assemble, MortarMats::finalize, MortarPenalty::initElementBou, MortarPenalty::evalBou, MortarContact::printAdditionalInfo, MortarPenalty::initIntegration"]}
{"id": "C112", "title": "The tangent of a finite deformation element is the derivative of its internal forces", "statement": "For every material whose tangent is the derivative of its stresses, the element matrix of the total and of the updated Lagrangian formulation is the derivative of the internal force vector with respect to the nodal displacements, at every displacement and in every direction, so that the Newton iterations converge quadratically.", "quantifier": "all elements with any number of nodes and integration points in two and three dimensions, all displacements and directions, all differentiable materials", "why_tests_cant": "A derivative along all directions at all displacements for a whole class of materials; a test compares finite differences in a few points.", "anchors": ["FiniteDeformation/NonlinearElasticityTL.C: evalInt, kinematics, formBmatrix", "FiniteDeformation/NonlinearElasticityUL.C: evalInt, kinematics", "Elasticity/Elasticity.C: formKG"]}
{"id": "C113", "title": "The F-bar element gives the forces of the volume-averaged deformation and the tangent of these forces", "statement": "The internal forces of the F-bar element do the virtual work of the Cauchy stresses which the material has at the deformation gradient with its volume ratio replaced by that of the volumetric sampling points. Where the sampled volume ratio is that of the point itself, they are those of the ordinary element. The element matrix is the derivative of these forces with respect to all nodal displacements, including the change of the sampled volume ratio, in every direction.", "quantifier": "all elements with any number of nodes, integration points and volumetric sampling points in two and three dimensions and in axisymmetry, all displacements and directions, all materials with a rate form tangent", "why_tests_cant": "A derivative along all directions at all displacements, through sampling points of which each influences all integration points; tests compare converged solutions of a few examples, which a wrong tangent does not change.", "anchors": ["FiniteDeformation/NonlinearElasticityFbar.C: NonlinearElasticityFbar::reducedInt, NonlinearElasticityFbar::evalInt"]}
{"id": "C114", "title": "The matrix of the mixed finite deformation element is the derivative of its forces", "statement": "For an element with internal pressure modes in a large deformation analysis, plane, three-dimensional or axisymmetric, with any number of nodes, integration points and pressure modes: the internal forces do the virtual work of the constitutive stresses at the deformation gradient scaled to the fitted volume change, with their mean value replaced by the fitted pressure; for hyperelastic materials they are the derivative of the strain energy; and the element matrix is their derivative for every direction of change of the displacements, and symmetric.", "quantifier": "all elements with independent pressure modes, all displacements with non-vanishing volume change, all directions, all materials with consistent tangents", "why_tests_cant": "A derivative along all directions at all displacements, through a projection which couples all integration points of an element; tests compare converged solutions of a few examples, which a wrong tangent does not change.", "anchors": ["FiniteDeformation/NonlinearElasticityULMX.C: NonlinearElasticityULMX::evalInt, NonlinearElasticityULMX::finalizeElement", "FiniteDeformation/accKMx.f: accKMx2D, accKMx3D"]}
{"id": "C115", "title": "The coupled matrix of the three-field mixed element is the derivative of its forces, which derive from the Hu-Washizu potential", "statement": "For the mixed formulation with displacements, volume change and pressure as unknowns, the coupled matrix of an element is the derivative of its coupled force vector with respect to all three fields, it is symmetric for materials with a symmetric tangent, the forces of the displacements are those of the constitutive stresses at the deformation gradient scaled to the volume change with their mean value replaced by the pressure field, those of the volume change balance pressure and mean stress, those of the pressure balance volume change and volume ratio, and for a hyperelastic material they are the gradient of the sum of the strain energy and the pressure times the difference of volume ratio and volume change.", "quantifier": "all plane, axisymmetric and three-dimensional elements with any number of nodes of both bases and integration points, all materials whose stresses follow the Truesdell rate of their tangent, all values of the unknowns and all directions of change", "why_tests_cant": "A test compares a finite difference with the matrix of one element in one state; the agreement must hold for every element, material and state, and the terms which couple the three fields vanish in simple states.", "anchors": ["FiniteDeformation/NonlinearElasticityULMixed.C:NonlinearElasticityULMixed::evalInt", "FiniteDeformation/NonlinearElasticityULMixed.C:ElmMats", "FiniteDeformation/accKM.f:accKM2D", "FiniteDeformation/accKM.f:accKM3D"]}
{"id": "C116", "title": "Boundary forces are the integrals of the tractions and agree with the nodal forces and loads", "statement": "For every boundary section the reported forces are the integrals of sigma*n over all its boundary points, and the torques those of (x-x0) x sigma*n, one in two dimensions and three in three; nodal forces are the integrals of N_a sigma*n, sum to the resultant and have its torque when the basis sums to one and reproduces the coordinates; a uniform stress gives no force and no torque on a closed boundary; where the stress balances an applied traction the nodal forces are the nodal loads of that traction. Violated in axisymmetric problems (the factor 2*pi*r of the loads is missing) and with strain output (the forces are computed from strains).", "quantifier": "all meshes, boundary points, stress states, reference points and sections, in two and three dimensions", "why_tests_cant": "A test compares the forces of a particular boundary; the identities must hold for every stress field, every boundary and every reference point.", "anchors": ["Elasticity/Elasticity.C:ElasticityForce::evalBou", "Elasticity/Elasticity.C:ElasticityForce::evalForce", "Elasticity/Elasticity.C:ElasticityForce::getNoComps", "Elasticity/SIMElasticity.C:SIMElasticity::calcBouForces", "main_LinEl.C:printBoundaryForces"]}
{"id": "C117", "title": "Norms of finite deformation elements with volume change fields", "statement": "The norms reported for a mixed element with internal pressure modes, a three-field element or an F-bar element are those of the stresses and strain energy densities at its modified deformation gradients: strain energy over the initial volume, and the volume, the squared stresses, their squared mean value, deviatoric part and von Mises value over the deformed volume. The reported strain energy of a material with a strain energy function is the potential of the internal forces of the mixed element, and is the value of the potential of the coupled forces of the three-field element where the forces of its pressures vanish; for the F-bar element its rate differs from the work of the internal forces by an explicit term.", "quantifier": "Every mesh of elements in two and three dimensions and in axisymmetry, every displacement, volume change and pressure field without vanishing volume ratios, every material with a strain energy, every number of integration points, sampling points and pressure modes.", "why_tests_cant": "A test compares the energy of a particular load case with a stored value; that the reported energy belongs to the forces is a statement about all displacement fields and directions.", "anchors": ["FiniteDeformation/NonlinearElasticityULMX.C:ElasticityNormULMX::finalizeElement", "FiniteDeformation/NonlinearElasticityULMixed.C:ElasticityNormULMixed::evalIntMx", "FiniteDeformation/NonlinearElasticityFbar.C:ElasticityNormFbar::evalInt", "FiniteDeformation/NonlinearElasticityUL.C:ElasticityNormUL::evalInt"]}
{"id": "C118", "title": "Stress and history update of the plastic material", "statement": "In an equilibrium iteration, the plastic material checks the trial stress of the elastic predictor against the yield criterion. If it is not exceeded, or flow is suspended, the stress is that of Hencky's law and the plastic variables stay as they are. Otherwise stress, elastic left Cauchy-Green tensor, plastic strains and accumulated plastic strain solve the implicit equations of associated flow with isotropic and kinematic hardening, with the final stress on the yield surface to the tolerance of the iteration, or non-convergence is reported; for linear hardening they are the closed form. The back stress follows the material directions in which it was built up. Superposed rigid rotations rotate the stress and nothing else.", "quantifier": "Every deformation gradient, every history, every set of non-negative hardening parameters of the criteria, every load history, every routine for principal values.", "why_tests_cant": "A test follows a few load paths with one material; the return mapping must solve its equations for all trial states and parameters, and objectivity is a statement about all rotations.", "anchors": ["FiniteDeformation/PlasticMaterial.C:PlasticMaterial::PlasticPoint::evaluate", "FiniteDeformation/PlasticMaterial.C:PlasticMaterial::PlasticPoint::yfunc"]}
{"id": "C119", "title": "The tangent of the plastic material is the linearisation of its stress update", "statement": "PlasticPoint::evaluate hands out a material matrix together with the stress. For every differentiable motion through the deformation gradient, with the history at the start of the increment held fixed, the matrix applied to the strain rate of the motion gives the convected (Oldroyd) rate of the Kirchhoff stress that the evaluations along the motion hand out, divided by the volume ratio. So the stiffness built from it is the exact derivative of the internal forces and Newton iterations converge quadratically. This holds for elastic evaluations with every criterion, and for plastic evaluations with linear isotropic and kinematic hardening for the von Mises criterion and for the criterion with a pressure term, also where principal stretches coincide. The matrix is square with as many rows as stress components and symmetric in every evaluation that succeeds.", "quantifier": "every previous history and deformation gradients, every differentiable motion through the current gradient with rotating principal axes, coinciding or distinct principal stretches (different ones differ by more than 1e-8), all material constants of the criteria, both 2D layouts and 3D, every routine for principal values", "why_tests_cant": "The derivative is a limit over all directions of deformation. A wrong entry of the transformation of the principal tangent shows only as slower convergence in states with rotating axes, and finite difference checks cannot separate it from the truncation error.", "anchors": ["FiniteDeformation/PlasticMaterial.C:PlasticMaterial::PlasticPoint::evaluate"]}
{"id": "C120", "title": "Reported plastic quantities belong to their points and evaluating them does not disturb the analysis", "statement": "In a result evaluation of the plastic material, the plastic strain, mean stress, principal stresses, triaxiality and Lode parameter reported for a point are those of the response of that point to its own deformation history; result evaluations have no influence on the integration points, on the return values of the integration, or on which points are reported as diverged. The Lode parameter lies between -1 and 1.", "quantifier": "every sequence of result evaluations, integration loops and changes of the number of integration points, every material law, every number of points", "why_tests_cant": "Unbounded call histories; the same container is used for all sets of result points.", "anchors": ["FiniteDeformation/PlasticMaterial.C: evaluate, initResultPoints, initIntegration, getInternalVar, diverged, ResultPoint", "Elasticity/Elasticity.C: evalSol2"]}
{"id": "C121", "title": "Stresses reported in large deformation analyses balance the forces of the elements", "statement": "In a large deformation analysis, the stresses reported at the integration points of an element are the Cauchy stresses in balance with its forces: the internal forces do the work of these stresses in every virtual displacement of the deformed element. As many values as announced are reported, with the proper names. The stresses of a linear material are F S F^t / J with S from the Green strains.", "quantifier": "every shape of element and number of nodes, every displacement field with positive or negative but nonzero volume ratios, every material, 2D and 3D, updated and total Lagrangian, F-bar and tensorial elements", "why_tests_cant": "The balance holds or fails as an identity in the displacements, the material and the virtual displacement; regression tests compare with earlier output and are blind to the kind of stress reported.", "anchors": ["Elasticity/Elasticity.C: evalSol, evalSol2", "Elasticity/LinIsotropic.C: evaluate", "FiniteDeformation/LinearMaterial.C: evaluate", "FiniteDeformation/PlasticMaterial.C: evaluate", "FiniteDeformation/NonlinearElasticityTL.C: evalInt", "FiniteDeformation/NonlinearElasticityUL.C: evalInt", "FiniteDeformation/NonlinearElasticityFbar.C: evalInt", "FiniteDeformation/NonlinearElasticity.C: evalSol, formStressTensor"]}
{"id": "C122", "title": "Internal forces of large deformation elements are self-equilibrated and turn with the element", "statement": "The internal forces of a large deformation element have no resultant and no moment in its deformed configuration, for every material. Turning and moving a deformed element turns its internal forces, and a total Lagrangian stiffness matrix with them. An element in rigid motion has no internal forces, however large the rotation. The total Lagrangian stiffness matrix gives no forces in translations, and in a small rotation of the deformed element the change of the forces when they turn with it.", "quantifier": "every isoparametric element and number of nodes, every displacement field (with nonzero volume ratios where the formulation needs them), every rotation and translation, every material (every objective one for the updated Lagrangian and F-bar elements), 2D and 3D", "why_tests_cant": "Equilibrium and objectivity are identities in the displacements, the rotation and the material; tests sample a few load steps of a few models, in which rigid rotations never occur alone.", "anchors": ["FiniteDeformation/NonlinearElasticityTL.C: evalInt, kinematics", "FiniteDeformation/NonlinearElasticityUL.C: evalInt, kinematics", "FiniteDeformation/NonlinearElasticityFbar.C: reducedInt, evalInt", "FiniteDeformation/LinearMaterial.C: evaluate", "Elasticity/LinIsotropic.C: evaluate"]}
{"id": "C123", "title": "Energies reported in large deformation analyses are potentials of the internal forces", "statement": "For total and updated Lagrangian elements in two and three dimensions, of linear and of hyperelastic materials, the energy that is reported with the solution is a potential of the internal forces: when the displacements change, its rate is the work of the internal forces done on the element. In updated Lagrangian elements the volume reported is that of the deformed element, and the stress norms are integrals over the deformed element. The two formulations report the same energy for the same linear material and the same displacements.", "quantifier": "all meshes, displacements and directions of change, all symmetric constitutive matrices, all materials with a strain energy function including the neo-Hookean ones", "why_tests_cant": "The energy is printed after each load step and its agreement with the forces can be tested only in single configurations; a factor of two between the formulations shows in no test that runs one of them.", "anchors": ["FiniteDeformation/NonlinearElasticityUL.C: ElasticityNormUL::evalInt", "Elasticity/Elasticity.C: ElasticityNorm::evalInt", "Elasticity/LinIsotropic.C: LinIsotropic::evaluate", "FiniteDeformation/LinearMaterial.C: LinearMaterial::evaluate", "FiniteDeformation/NeoHookeMaterial.C: NeoHookeMaterial::evaluate", "Elasticity/NonlinearDriver.C: NonlinearDriver::printNorms"]}
{"id": "C124", "title": "Extreme values of the results are reported when the user asks for them", "statement": "When the user asks for the extreme values of the stresses and other results, on the command line or in the input file, the report after each step names each result component with the value of largest magnitude found in that step and the point where it was found, per patch if that is asked for; components that vanish are left out. Without a request, but with results visualized or projected, the report has the von Mises stress and the plastic strain, triaxiality and Lode parameter of plastic materials.", "quantifier": "all meshes, stress fields and histories of steps, all combinations of command line and input file requests, visualization, projection, adaptivity and saving intervals", "why_tests_cant": "The combinations of options and the order of the entries in the input file are too many to test, and a report that silently misses values looks like a report of a small stress.", "anchors": ["Elasticity/Elasticity.C: Elasticity::initMaxVals", "Elasticity/Elasticity.C: Elasticity::printMaxVals", "Elasticity/NonlinearDriver.C: NonlinearDriver::solveProblem", "Elasticity/SIMElasticity.C: SIMElasticity::parse", "main_NonLinEl.C: runSimulator", "main_LinEl.C: main"]}
{"id": "C125", "title": "Extraction functions give dual loads and reported quantities of interest", "statement": "The extraction functions of the input are kept in their order, with one solution vector each besides the displacement. In each element the nodal values of a function are those of its field at the nodes of the element if the centre of the element is in the domain of the function, and are absent otherwise. The dual load of an element is its stiffness times the nodal values of the first function; elements outside the domain have none. The value reported for a function is the work of the nodal forces of the elements - stiffness times displacements minus the load of the temperature - on the function, so it equals the dual load times the displacements; for a function that is a coordinate in some direction, divided by the volume, it is the mean value of a stress component.", "quantifier": "all lists of functions, meshes, fields, displacements, temperatures, linear isotropic materials in two and three dimensions and in axial symmetry", "why_tests_cant": "A test compares numbers of one function on one mesh; that the dual load is adjoint to the reported value, and that elements outside the domain contribute nothing whatever solution was computed before, is a statement about all of them.", "anchors": ["Elasticity/LinearElasticity.C: LinearElasticity::initElement", "Elasticity/LinearElasticity.C: LinearElasticity::evalInt", "Elasticity/LinearElasticity.C: LinearElasticity::setMode", "Elasticity/Elasticity.C: Elasticity::addExtrFunction", "Elasticity/Elasticity.C: ElasticityNorm::evalInt", "Elasticity/Elasticity.C: Elasticity::evalSol", "Elasticity/SIMElasticity.C: SIMElasticity::parse", "Elasticity/SIMElasticity.C: SIMElasticity::preprocessA"]}
{"id": "C126", "title": "Reused element matrices are those that would be computed", "statement": "In linear analyses the stiffness and mass matrices of the elements can be stored in one assembly and reused in later ones. In every sequence of mode changes, requests for storage, requests for reuse and assemblies of elements in any order, each element gets the matrices that are computed in the present mode, each in its place, as if nothing were stored, provided that elements are reused only after they have been stored.", "quantifier": "all sequences of modes, requests and assemblies, all element integrals, element numbers and orders of the elements, all time integration parameters", "why_tests_cant": "The reuse changes nothing but the time of the analysis when it is right; a test of one time integration does not show what other modes of the same integrand get from the buffers.", "anchors": ["Elasticity/LinearElasticity.C: LinearElasticity::initLHSbuffers", "Elasticity/LinearElasticity.C: LinearElasticity::initElement", "Elasticity/LinearElasticity.C: LinearElasticity::evalInt", "Elasticity/LinearElasticity.C: LinearElasticity::finalizeElement", "Elasticity/LinearElasticity.C: LinearElasticity::setMode", "Elasticity/Elasticity.C: Elasticity::getLocalIntegral"]}
{"id": "C127", "title": "Forces of mixed elements are self-equilibrated and turn with the element", "statement": "The nodal forces of a mixed element, with internal pressure modes or with displacements, volume change and pressure as unknowns, have no resultant and no moment in its deformed configuration, for every material and whatever the values of volume change and pressure are. Turning and moving a deformed element turns its nodal forces, and leaves the forces of volume change and pressure as they are. An element with pressure modes in rigid motion has no forces, however large the rotation, if its material has no stresses in the initial configuration.", "quantifier": "every isoparametric plane or three-dimensional element with independent pressure modes or with a second basis, every displacement field with nonzero volume ratios, every rotation and translation, every material (every objective one for the turned elements)", "why_tests_cant": "Rotations of any size and displacements of any number of nodes; a defect in the moment or in the fitted volume change would only show for distorted elements in general position.", "anchors": ["FiniteDeformation/NonlinearElasticityULMX.C: evalInt, finalizeElement", "FiniteDeformation/NonlinearElasticityULMixed.C: evalIntMx", "FiniteDeformation/accKMx.f: accKMx2D, accKMx3D"]}
{"id": "C128", "title": "All formulations pass the patch test", "statement": "If the nodes of a solid element move with a uniform displacement gradient, its nodal forces are those of a uniform stress: in linear elasticity that of the constitutive matrix and the strain, in the total Lagrangian formulation the deformation gradient times the second Piola-Kirchhoff stress, and in the updated Lagrangian formulation, the F-bar formulation and both mixed formulations the stress that belongs to the Cauchy stress of the material. No force acts on a node whose basis function has a gradient of vanishing integral, the sampling points, pressure modes and the second basis have no influence, and formulations with the same Cauchy stress have the same nodal forces. In the three-field formulation the volume ratio and the mean stress of the deformation solve the equations of volume change and pressure.", "quantifier": "every isoparametric plane or three-dimensional element, every integration rule, every uniform displacement gradient with nonzero volume ratio, every material, every number of sampling points, pressure modes and functions of the second basis", "why_tests_cant": "A patch test in the test suite has one mesh, one material and one deformation; convergence of a formulation needs it for all shapes and sizes of the deformation.", "anchors": ["Elasticity/LinearElasticity.C: LinearElasticity::evalInt", "FiniteDeformation/NonlinearElasticityTL.C: NonlinearElasticityTL::evalInt", "FiniteDeformation/NonlinearElasticityUL.C: NonlinearElasticityUL::evalInt", "FiniteDeformation/NonlinearElasticityFbar.C: NonlinearElasticityFbar::reducedInt, NonlinearElasticityFbar::evalInt", "FiniteDeformation/NonlinearElasticityULMX.C: evalInt, finalizeElement", "FiniteDeformation/NonlinearElasticityULMixed.C: evalIntMx"]}
{"id": "C129", "title": "Shells, plates, cables and bars: internal forces balance and turn with the structure", "statement": "In every position of the nodes, however large the displacements and rotations, the internal forces that the nonlinear shell and the cable element add to the residual at an integration point have no resultant force and no resultant moment about the current positions of the nodes. The forces of the linear shell and of all three plate formulations, for any displacements, have no resultant and no moment about the initial positions, and a rigid deflection of a plate causes no forces. Moving the displaced structure as a rigid body by any translation and any finite rotation leaves the internal forces and the tangent stiffness of shells and bars, and the forces and material stiffness of cables, unchanged but for that rotation.", "quantifier": "all node numbers, basis functions whose derivatives add up to zero, nodal positions, displacements, finite rotations and translations, admissible isotropic materials, thicknesses, strain measures of the bar; curved cables, and straight ones that remain straight", "why_tests_cant": "A test compares a few solutions with reference values; that no configuration whatsoever yields forces with a resultant or moment, or a response that depends on the orientation of the structure, is a statement about all positions and rotations.", "anchors": ["Shell/NLKirchhoffLoveShell.C::evalKandS", "Shell/KirchhoffLoveShell.C::evalK", "Linear/KirchhoffLovePlate.C::evalInt", "Beam/ElasticCable.C::evalInt", "Beam/ElasticBar.C::evalInt"]}
{"id": "C130", "title": "A beam model is the one written in the input", "statement": "The data in the element beam of the input is the data of the model: the material read last gives the moduli and the density (the shear modulus from Poisson's ratio where it is not given), every section is kept in the order of the input, and at every point its axial, bending and torsional stiffness, shear parameters and line mass are the function given last for the quantity itself, otherwise modulus or density times the function given for the geometric property, otherwise times the constant; unknown names and empty elements change nothing; without sections the documented default section is used. Line loads, distributed moments, Z-direction, twist and mass formulation are those given last, every point and node load acts in the order of the input or an error is reported, an element that is not understood ends the reading with an error, and the twist is applied to every patch of a generated model.", "quantifier": "all lists of child elements with any attributes, functions and tables, all points, all earlier states", "why_tests_cant": "inputs are arbitrary sequences of tags with interacting defaults; tests read a handful of files", "anchors": ["Beam/SIMElasticBar.C:SIMElasticBar::parse", "Beam/SIMElasticBar.C:SIMElasticBar::parseTwist", "Beam/SIMElasticBar.C:SIMElasticBar::createFEMmodel", "Beam/SIMElasticBar.C:SIMElasticBar::initNeumann", "Beam/BeamProperty.C:BeamProperty::parse", "Beam/BeamProperty.C:BeamProperty::readCSV", "Beam/ElasticBeam.C:ElasticBeam::parseBeamLoad", "Beam/ElasticBeam.C:ElasticBeam::parse", "Beam/ElasticBeam.C:ElasticBeam::printLog"]}
{"id": "C131", "title": "The materials and data of a solid model are those written in the input", "statement": "The elements of a solid model's input give the data of the model: each isotropic or texture material is registered for its code in the order of the input with the constants given (steel otherwise), and its stiffness (also as function of age), Poisson's ratio, density, thermal expansion, heat capacity and conductivity at each point, age and temperature are the function given for that property where there is one. In two dimensions a material is in plane strain exactly if the option given last up to it says so, also when the input is read again on the next mesh of an adaptive simulation. Body forces act for their code in the order of the input, stabilisation and local coordinate system are those given last, in the line format as in the element format, and an input that is not understood is reported.", "quantifier": "all lists of elements with any attributes and children, all functions, points, ages and temperatures, all earlier states, any number of readings", "why_tests_cant": "inputs are arbitrary sequences of elements with static state between materials and readings; tests read a handful of files, each with at most one property function in a material", "anchors": ["Elasticity/LinIsotropic.C:LinIsotropic::parse", "Elasticity/SIMElasticity.C:SIMElasticity::parse", "Elasticity/Elasticity.C:Elasticity::parse", "Elasticity/Elasticity.C:Elasticity::parseMatProp", "Elasticity/LocalSystems.C:Elasticity::parseLocalSystem"]}
{"id": "C132", "title": "The static solution of a solid model balances the loads and is the only one", "statement": "For a mesh of solid elements with linear elastic materials, the assembly succeeds and the internal forces are those of the principle of virtual work with Hooke's law. For every solution of the equations, support forces arise only where displacements are prescribed, and in each direction and for moments about every point they balance the loads; in each direction they are the negative of the sum of the loads reported. With supports that do not move the loads of one load case do the same work in the displacements of another as the other way round. A solution has the least potential energy of all displacements with the prescribed values, and strains and stresses of all solutions agree; if the supports admit no motion without strains, there is exactly one solution for all loads and prescribed displacements. In large deformation analyses, in any deformed state, the support forces of the total Lagrangian formulation balance the loads in the deformed configuration.", "quantifier": "all meshes in two and three dimensions (any number of elements, nodes and integration points, any connectivity), all bases that represent constants and coordinates, all admissible isotropic materials, all loads, supports and prescribed displacements", "why_tests_cant": "a test solves a few meshes with a few loads; the equilibrium and uniqueness of the solution concern every mesh, material and load", "anchors": ["Elasticity/LinearElasticity.C:LinearElasticity::evalInt", "Elasticity/Elasticity.C:Elasticity::formBmatrix", "Elasticity/Elasticity.C:Elasticity::formBodyForce", "Elasticity/Elasticity.C:Elasticity::evalBou", "Linear/SIMLinEl.h:solveSystem", "main_LinEl.C:main", "Elasticity/LinIsotropic.C:LinIsotropic::evaluate", "FiniteDefElasticity/NonlinearElasticityTL.C:NonlinearElasticityTL::evalInt"]}
{"id": "C133", "title": "The static solution of a frame of beams balances the loads and is the only one", "statement": "For a frame of beams of any number of members and nodes, the assembly succeeds and the internal forces do the work of the member forces in the displacements of the member ends. The resultant of the gravitation loads is the weight of all members. The loads of one load case do the same work in the displacements of another as the other way round. If each member has the same eccentricity at both ends, support forces and moments arise only where displacements and rotations are prescribed and are in equilibrium with the loads, for moments about every point; and if the members connect all nodes and the supports admit no motion as a rigid body, there is a solution for all loads and prescribed displacements, and only one.", "quantifier": "all frames (any number of members, nodes and connections, any placement of nodes and local axes), all positive section stiffnesses, all loads, supports and prescribed displacements", "why_tests_cant": "a test solves a few frames with a few loads; the equilibrium and uniqueness of the solution concern every frame and load", "anchors": ["Beam/ElasticBeam.C:ElasticBeam::evalInt", "Beam/ElasticBeam.C:ElasticBeam::finalizeElement", "Beam/ElasticBeam.C:ElasticBeam::getMaterialStiffness", "Beam/ElasticBeam.C:eccTransform", "main_LinEl.C:main"]}
{"id": "C134", "title": "The modes of free vibration of a solid model have its energies and momenta", "statement": "For a free vibration analysis of a solid model the assembly succeeds, and the matrices have the strain energy and the kinetic energy of the body as their quadratic forms; the mass moved in each direction is the mass of the body. For every mode returned, the square of the frequency is its strain energy over its kinetic energy, is not negative, and is zero only if the mode causes no strains. Modes of different frequencies are orthogonal with respect to mass and stiffness. Without supports the motions of a rigid body are modes of frequency zero, and all other modes are free of momentum and angular momentum. Densities that are c times as large divide the squares of the frequencies by c and leave the modes as they are. If all admissible displacements have kinetic energy there are as many modes as free degrees of freedom, every admissible displacement is a superposition of them, and no displacement has a lower Rayleigh quotient than the lowest mode.", "quantifier": "all meshes in two and three dimensions (any number of elements, nodes and integration points), all admissible isotropic materials and densities, all supports, all modes", "why_tests_cant": "a test compares a few frequencies of a few meshes; the relations hold for every model and every mode", "anchors": ["Elasticity/LinearElasticity.C:LinearElasticity::evalInt", "Elasticity/Elasticity.C:Elasticity::formMassMatrix", "main_LinEl.C:main"]}
{"id": "C135", "title": "Quasi-static modal simulations converge to the static solution, and the modal drivers report every failure", "statement": "A quasi-static modal simulation gives in each step the response of the modes to the loads of that step, whatever the earlier steps were, until the first step whose equations cannot be solved or whose update fails. With all modes of the model the response is the solution of the static problem. With any number of modes its strain energy is the sum of the squared works of the loads in the modes over the squared frequencies, so it grows with each mode and is below that of the static solution by exactly the energy of the difference. A dynamic modal step converges exactly when prediction, solution, convergence check and correction of the time integration succeed, and otherwise leaves the solution unchanged unless only the correction failed. The exit status tells which preparation failed, and no step is done then; time histories of modes are saved under consecutive step numbers until the first step that fails, and the exit status tells how it failed.", "quantifier": "all solid models, all sets of orthonormal modes of nonzero frequency, all loads, all numbers of steps, all outcomes of reading, saving and solving", "why_tests_cant": "a test runs a few models with a few modes and succeeds in all preparations; the approach to the static solution and the handling of failures concern all of them", "anchors": ["Linear/ModalDriver.C:modalSim", "Linear/ModalDriver.C:ModalDriver::predictStep", "Linear/ModalDriver.C:ModalDriver::correctStep", "Linear/ModalDriver.C:ModalDriver::checkConvergence", "Linear/ModalDriver.C:ModesHistorySIM::solve", "Linear/SIMLinElModal.h:SIMLinElModal::assembleSystem"]}
{"id": "C136", "title": "A linear buckling analysis finds the load factors at which a solid model becomes unstable", "statement": "For a linear buckling analysis of a solid model after its static solution the assembly succeeds; the material stiffness is that of the static problem, and the geometric stiffness has the second-order work of the stresses reported for the static solution as its form. It causes no forces when the body is moved without rotation. In a state of buckling the strain energy is the load factor times the energy released by these stresses, and states of different load factors are orthogonal. With loads c times as large the states are the same and the load factors are divided by c. If all stresses are tensile there is no positive load factor. If the supports admit no motion without strains, every disturbance raises the energy at load factors below the lowest positive one of buckling, and above it there is a disturbance that lowers it.", "quantifier": "all meshes in two and three dimensions (any number of elements, nodes and integration points), all admissible isotropic materials, all supports, all static solutions whose strains vanish or exceed the threshold 1e-16 of the code at each integration point", "why_tests_cant": "a test compares a few load factors of a few models; the relation to the stability of the body concerns every model and load", "anchors": ["Elasticity/LinearElasticity.C:LinearElasticity::evalInt", "Elasticity/Elasticity.C:Elasticity::formKG", "main_LinEl.C:main"]}
{"id": "C137", "title": "The static solution and the vibrations of a plate model are those of thin plate theory", "statement": "For a plate of any number of elements, in each of the three formulations: the assembled equations express the work of the bending and twisting moments (with their Poisson coupling), the work of inertia and of own weight and pressures; the forces of the supports balance the loads, in force and in the moments about every axis of the plane, and their sum is opposite to the reported sum of loads, which is the integral of the loads; load cases are reciprocal; a solution has the least potential energy; there is exactly one solution if the supports admit no deflection without curvatures, and otherwise none or many; the modes of free vibration are complete and orthogonal with frequencies that are not negative. In the third formulation only the sum of the two curvatures counts: it has no stiffness against twisting, so supports that suffice for the others may not suffice for it.", "quantifier": "all plate models: any numbers of elements, nodes and integration points, any basis functions that represent constants and coordinates, thicknesses, materials, loads, supports and formulations", "why_tests_cant": "the statements are about all meshes, supports and loads; tests check single deflections on single meshes and cannot show balance, uniqueness or completeness of modes", "anchors": ["Linear/KirchhoffLovePlate.C:KirchhoffLovePlate::evalInt", "Linear/KirchhoffLovePlate.C:KirchhoffLovePlate::evalK1", "Linear/KirchhoffLovePlate.C:KirchhoffLovePlate::evalK2", "Elasticity/KirchhoffLove.C:KirchhoffLove::formBodyForce", "Elasticity/KirchhoffLove.C:KirchhoffLove::formMassMatrix", "main_LinEl.C:main"]}
{"id": "C138", "title": "A static solution of a shell model is in balance, minimal and unique, its vibrations are complete, and rejected materials end the assembly", "statement": "For a shell model of Kirchhoff-Love elements on a regular surface, with admissible material, thickness and weights: the assembly succeeds and the assembled stiffness does the work of membrane forces and moments in membrane strains and curvatures. In every static solution there are no support forces at free degrees of freedom, and support forces and loads have no resultant and no moment about any point; under own weight and pressures the support forces are opposite to the reported load sums, which are the integrals of the loads (own weight in the third direction, pressures along the normal). Work of loads is reciprocal between load cases; a solution has the least potential energy; if the supports admit no displacements without strains there is exactly one solution. If admissible displacements move mass, there are as many orthogonal modes as free degrees of freedom, spanning all displacements. A material rejected by the constitutive law ends the assembly with a failure (violated: the shell element ignores it and assembles no stiffness).", "quantifier": "all shell models (numbers of elements, nodes, integration points, geometries, bases, materials, thicknesses), all supports, prescribed displacements, load cases and displacements", "why_tests_cant": "Tests run single examples with fixed geometry; balance, minimality, uniqueness and completeness of modes are claims about all models and loads, and no test uses a rejected material with shells.", "anchors": ["Shell/KirchhoffLoveShell.C:KirchhoffLoveShell::evalInt", "Shell/KirchhoffLoveShell.C:KirchhoffLoveShell::evalK", "Elasticity/KirchhoffLove.C:KirchhoffLove::formBodyForce", "Elasticity/KirchhoffLove.C:KirchhoffLove::formMassMatrix", "main_LinEl.C:main"]}
{"id": "C139", "title": "Vibrations and buckling of frames follow from the energies and axial forces of their members", "statement": "For a frame of any beams: in a vibration analysis without diagonal lumping the assembly succeeds, the stiffness has the strain energy of the members as its form and the mass matrix their kinetic energy, with centres of mass beside the axis; a common translation carries the total mass. If all admissible displacements move mass there are as many modes as free degrees of freedom, orthogonal with respect to the mass, with squares of frequencies that are not negative (positive if the supports admit no motion without deformation), and no displacement has a lower quotient of energies than the lowest mode. In a buckling analysis the second matrix does the second-order work of the axial forces of the static solution; in a state of buckling the strain energy is the load factor times the energy these forces release; a frame in which no member is compressed does not buckle; below the lowest positive load factor every disturbance raises the energy and above it one lowers it. Eccentric members have a buckling analysis too (violated: it is refused as soon as they are displaced).", "quantifier": "all frames (any number of members and nodes, sections, orientations, shear centres, centres of mass), all supports, all static solutions that vanish on a member or exceed the threshold of the code there", "why_tests_cant": "a test compares single frequencies and load factors; completeness of modes and the relation to stability concern every frame", "anchors": ["Beam/ElasticBeam.C:ElasticBeam::evalInt", "Beam/ElasticBeam.C:ElasticBeam::finalizeElement", "Beam/ElasticBeam.C:ElasticBeam::getMassMatrix", "Beam/ElasticBeam.C:ElasticBeam::getGeometricStiffness", "Elasticity/ElasticBase.C:ElasticBase::setMode", "main_LinEl.C:main"]}
{"id": "C140", "title": "Converged states of large deformation analyses are in equilibrium, do not depend on orientation, and are stationary points of the potential", "statement": "In a static analysis with large deformations (total Lagrangian, updated Lagrangian or F-bar elements), the internal forces assembled from all elements balance by themselves, so that in a converged state the applied loads and the reactions are in equilibrium, with respect to forces and to moments about the deformed positions. A converged state that is turned and moved as a rigid body, with loads turned alike, is a converged state again. A rigidly moved, unloaded model is in equilibrium without straining. The assembled tangent matrix is the derivative of the assembled internal forces, and an iteration reproduces a converged state. For hyperelastic updated Lagrangian models a state is converged exactly if the reported strain energy minus the work of the loads is stationary with respect to the free displacements.", "quantifier": "All meshes, numbers of nodes and elements, displacements, rotations, loads, supports and objective materials, in two and three dimensions", "why_tests_cant": "Tests run single benchmark problems to convergence and compare displacement values; they cannot cover all meshes, materials, orientations and load states, nor show that the tangent is consistent for all of them.", "anchors": ["FiniteDeformation/NonlinearElasticityTL.C:NonlinearElasticityTL::evalInt", "FiniteDeformation/NonlinearElasticityUL.C:NonlinearElasticityUL::evalInt", "FiniteDeformation/NonlinearElasticityFbar.C:NonlinearElasticityFbar::evalInt", "Elasticity/NonlinearDriver.C:NonlinearDriver::solveProblem"]}
{"id": "C141", "title": "Point loads of plates and shells act in the load vector as the input file says", "statement": "For plates and shells, the load vector and the sums of the loads that result from the point load entries of the input file are the sums of what each entry says: its value at the current time, in its direction (the normal of a plate; for shells the given axis, by default the first one), at the node at its point or the closest node, or distributed over the element by the basis functions if element loads are allowed. Entries without value have no effect. The program stops with an error exactly if some entry has neither node nor element. Text input with the same contents gives the same loads.", "quantifier": "All lists of point loads, points, patches, directions, load functions, times and meshes", "why_tests_cant": "Tests use one or two point loads at corners or centre points; they do not cover all combinations of attributes, directions, repeated sections and incomplete input.", "anchors": ["Shell/SIMKLShell.C:SIMKLShell::parse", "Shell/SIMKLShell.C:SIMKLShell::preprocessB", "Shell/SIMKLShell.C:SIMKLShell::assembleDiscreteTerms"]}
{"id": "C142", "title": "Converged states of thin shells with large displacements are in equilibrium, independent of orientation, and stationary", "statement": "In a converged nonlinear shell analysis the loads and reactions have no resultant and no moment at the deformed positions. Turning and moving the deformed shell and its loads gives a converged state again, and rigid motions of the unloaded shell need no forces. The tangent matrix is symmetric and is the exact derivative of the residual, and the converged states are exactly the stationary points of strain energy minus work of the loads that meet the supports.", "quantifier": "all shell models with any number of elements, nodes and integration points, all admissible materials, all loads, supports, deformed states and rotations", "why_tests_cant": "equilibrium in the deformed shape and consistency of the tangent must hold in every state that iterations can visit; tests compare a few displacement values of benchmark shells with a tolerance", "anchors": ["Shell/NLKirchhoffLoveShell.C:NLKirchhoffLoveShell::evalInt", "Shell/NLKirchhoffLoveShell.C:NLKirchhoffLoveShell::evalKandS", "Elasticity/NonlinearDriver.C:NonlinearDriver::solveProblem"]}
{"id": "C143", "title": "Converged states of trusses with large displacements balance loads and weight, do not depend on orientation, and are stationary", "statement": "In a nonlinear static analysis of elastic bars the residual in each node is the load, half of the weight of the bars that meet there, and their axial forces along the deformed bars for the chosen strain measure; a bar that has shrunk to a point is reported as a failure. In a converged state loads, weight and reactions have no resultant and no moment in the deformed positions; turned states with turned loads are converged again, and rigid motions give no axial forces. The tangent gives the change of the residual, and the converged states are exactly the stationary points of strain energy minus work of the loads and the weight.", "quantifier": "all trusses with any number of nodes and bars, all strain measures, stiffnesses, masses and gravity vectors, all loads, supports, displacements and rotations", "why_tests_cant": "tests compare a few displacements of small trusses; equilibrium in the deformed shape, independence of the orientation and an exact tangent concern every state the iterations can visit", "anchors": ["Beam/ElasticBar.C:ElasticBar::evalInt", "Beam/ElasticBar.C:ElasticBar::getStrain", "Elasticity/ElasticBase.C:ElasticBase::setMode", "Elasticity/NonlinearDriver.C:NonlinearDriver::solveProblem"]}
{"id": "C144", "title": "Converged states of cables with large displacements are in equilibrium", "statement": "When the nonlinear static analysis of a model of cable elements has converged and the cable is curved in its integration points, the support forces together with the given loads and the weight of the cable have no resultant and no moment about any point at the deformed positions; the weight is mass times gravitation at the deformed integration points. Turning the deformed cable with the loads and the gravitation turns the residual, so that the turned state is converged exactly if the original one is; a rigid motion of an initially curved cable causes no internal forces. A state is converged exactly if the prescribed displacements are met and the strain energy minus the work of weight and loads is stationary with respect to the free displacements, and exactly if an iteration does not change it. The tangent matrix is symmetric and is the derivative of the residual.", "quantifier": "all models of cable elements, numbers of nodes and integration points, basis functions, stiffnesses, masses, loads, prescribed displacements, displacements and rotations", "why_tests_cant": "Tests compare a few load histories with reference values; they do not show equilibrium in the deformed state for every model, nor that the tangent matrix is wrong only where the iterations converge anyway.", "anchors": ["Beam/ElasticCable.C: ElasticCable::evalInt, evalLocalAxes", "Elasticity/ElasticBase.C: ElasticBase::setMode", "Elasticity/NonlinearDriver.C: NonlinearDriver::solveProblem"]}
{"id": "C145", "title": "Motions of trusses balance momentum, angular momentum and energy", "statement": "When the equations of motion of a truss of elastic bars are met in a dynamic analysis with large displacements, mass times acceleration at each free node is the load, half of the weight of the bars that meet there, and their axial forces along the deformed bars; the nodes together carry the mass of the bars. Reactions, loads and weight together are the change of momentum, their moments about any point in the deformed positions are the change of angular momentum, and their power is the change of the kinetic energy plus the strain energy; a free truss without loads keeps momentum, angular momentum and energy. This is to hold for lumped and for consistent mass matrices.", "quantifier": "all trusses with any number of nodes and bars, all strain measures, stiffnesses, masses, gravity vectors, loads and supports, all displacements, velocities and accelerations", "why_tests_cant": "Tests follow a few motions in time and compare displacements; conservation laws concern every state a motion can reach, and a mass matrix that couples the directions shows only in motions that are not tested.", "anchors": ["Beam/ElasticBar.C: ElasticBar::evalInt, getLocalIntegral", "Beam/ElasticBar.h: ElasticBar::setMass", "Elasticity/ElasticBase.C: ElasticBase::setMode"]}
{"id": "C146", "title": "Motions of cables balance momentum, angular momentum and energy", "statement": "When the equations of motion of a model of cable elements are met in a dynamic analysis with large displacements, the support forces together with loads and weight are mass times acceleration, summed over the integration points, and their moments about any point at the deformed positions are the change of the angular momentum. The mass matrix is symmetric, and with it the kinetic energy is that of the velocities at the integration points. The power of support forces and loads is the rate of change of kinetic energy, strain energy and potential energy of the weight. In a motion without supports, loads and weight momentum and angular momentum never change. A state without accelerations meets the equations of motion exactly if it is converged in static analysis.", "quantifier": "all models of cable elements, numbers of nodes and integration points, basis functions, stiffnesses, masses, loads, supports, displacements, velocities and accelerations", "why_tests_cant": "Tests follow a few motions in time; the balance laws concern every state and every direction of motion, and an error in them appears only as slow drift of energy or momentum.", "anchors": ["Beam/ElasticCable.C: ElasticCable::evalInt, evalLocalAxes", "Elasticity/ElasticBase.C: ElasticBase::setMode"]}
{"id": "C147", "title": "Motions of thin shells with large displacements balance momentum, angular momentum and energy", "statement": "When the equations of motion of a model of thin shells are met in a dynamic analysis with large displacements, the support forces together with loads, weight and pressures on the deformed surface are mass times acceleration, summed over the integration points, and their moments about any point at the deformed positions are the change of the angular momentum. The mass matrix is symmetric, and with it the kinetic energy is that of the velocities at the integration points. The power of support forces, loads, weight and pressures is the rate of change of kinetic energy and strain energy. In a motion without supports, loads, weight and pressures momentum and angular momentum never change. A state without accelerations meets the equations of motion exactly if it is converged in static analysis with weight and pressures as loads. A material that the constitutive law rejects makes the analysis fail.", "quantifier": "all models of thin shells, numbers of nodes and integration points, basis functions that sum to one, admissible and rejected materials, thicknesses, densities, pressures, loads, supports, positions, velocities and accelerations", "why_tests_cant": "Tests follow a few motions in time; the balance laws concern every state and every direction of motion, and an error in them appears only as slow drift of energy or momentum.", "anchors": ["Shell/NLKirchhoffLoveShell.C: NLKirchhoffLoveShell::evalInt, evalKandS", "Elasticity/KirchhoffLove.C: KirchhoffLove::formMassMatrix, formBodyForce, getPressure, setMode"]}
{"id": "C148", "title": "Motions of solids with large deformations balance momentum, angular momentum and energy", "statement": "When the equations of motion of a model of solids in the total Lagrangian formulation are met in a dynamic analysis with large deformations, the support forces vanish where nothing is held; together with loads and body forces they are mass times acceleration, summed over the integration points with their undeformed volume, and their moments about any point at the deformed positions are the change of the angular momentum. The mass matrix is symmetric and the same in all states of deformation, and with it the kinetic energy is that of the velocities at the integration points. In a motion without supports, loads and body forces momentum and angular momentum never change. For linear material laws the power of support forces, loads and body forces is the rate of change of kinetic energy and strain energy. A state without accelerations meets the equations of motion exactly if it is converged in static analysis with the body forces as loads.", "quantifier": "all models of plane and three-dimensional solids, numbers of nodes and integration points, basis functions that sum to one, isoparametric gradients, material laws that can be evaluated, densities, body forces, loads, supports, displacements and accelerations", "why_tests_cant": "Tests follow a few motions in time; the balance laws concern every state and every direction of motion, and an error in them appears only as slow drift of momentum.", "anchors": ["FiniteDeformation/NonlinearElasticityTL.C: NonlinearElasticityTL::evalInt", "Elasticity/Elasticity.C: Elasticity::formMassMatrix, formBodyForce"]}
