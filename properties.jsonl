{"id": "C01", "title": "Logic-tree enumeration is sound and complete", "statement": "Iterating a LogicTree with distinct node names yields a branch with a given assignment of values to nodes if and only if some choice of one positive-weight alternative per node has those values and every chosen alternative's requires/excludes conditions hold in that choice. The iteration raises nothing if conditions name nodes of the tree, float references are used for numbers only and no value is a list.", "quantifier": "every list of nodes, every list of alternatives per node, every requires/excludes dictionary that names existing nodes, every assignment", "why_tests_cant": "The number of trees and conditions is unbounded; the product/filter/dedup pipeline can only be sampled.", "anchors": ["src/pystrata/logic_tree.py:LogicTree.__iter__", "src/pystrata/logic_tree.py:LogicTree.is_valid", "src/pystrata/logic_tree.py:Node.__iter__", "src/pystrata/logic_tree.py:Realization.is_valid"]}
{"id": "C02", "title": "Logic-tree branches are distinct, in product order, first alternative wins", "statement": "No two branches yielded by one iteration of a LogicTree have the same node-to-value mapping; branches come in the lexicographic order of the alternatives; when several valid choices have the same values, the yielded branch is the earliest of them.", "quantifier": "every logic tree", "why_tests_cant": "Depends on the joint behaviour of the product order and the seen-set over all trees.", "anchors": ["src/pystrata/logic_tree.py:LogicTree.__iter__", "src/pystrata/logic_tree.py:Branch.as_dict"]}
{"id": "C03", "title": "Unconditional branch weights multiply and sum to the product of node totals", "statement": "For a tree with distinct node names, no requires/excludes, and distinct values within each node, the weights of the yielded branches sum to the product over nodes of the sum of that node's positive weights (so to 1 when every node's weights sum to 1), and each branch weight is the product of its realizations' weights.", "quantifier": "every unconditional tree and every weight vector; the claim without the distinct-values hypothesis is refuted", "why_tests_cant": "Sums over an exponentially large set of branches for arbitrary trees.", "anchors": ["src/pystrata/logic_tree.py:Branch.weight", "src/pystrata/logic_tree.py:LogicTree.__iter__", "src/pystrata/logic_tree.py:Node.__iter__"]}
{"id": "C04", "title": "requires means all match, excludes means not all match", "statement": "A realization is valid in a branch iff every (name, reference) pair in requires matches the branch's value for that name and, when excludes is non-empty, at least one pair in excludes does not match; a list reference matches by membership, a float reference by isclose, anything else by equality; a condition that is evaluated and names a node absent from the branch raises KeyError instead of being ignored.", "quantifier": "every realization, branch and condition dictionaries", "why_tests_cant": "All combinations of condition kinds, orders and missing keys are unbounded.", "anchors": ["src/pystrata/logic_tree.py:Realization.is_valid", "src/pystrata/logic_tree.py:Alternative.is_valid"]}
{"id": "C05", "title": "Node and tree lookup return the first match", "statement": "tree[key] returns the first node with that name, node.by_value(v) the first alternative whose value equals (or, for a float v, is close to) v, and None exactly when there is none; node.options lists all values in order; iterating a node yields exactly the alternatives with weight > 0 in order, each carrying the node name and the alternative's own weight, conditions and params. node.to_xarray has all values as coordinates, in order, with their weights, also those of weight zero.", "quantifier": "every node, tree and query", "why_tests_cant": "Quantifies over all lists and queries.", "anchors": ["src/pystrata/logic_tree.py:LogicTree.__getitem__", "src/pystrata/logic_tree.py:Node.by_value", "src/pystrata/logic_tree.py:Node.options", "src/pystrata/logic_tree.py:Node.__iter__", "src/pystrata/logic_tree.py:Node.from_dict", "src/pystrata/logic_tree.py:Node.to_xarray"]}
{"id": "C06", "title": "Miller-Rice nodes are valid symmetric discrete distributions", "statement": "For every branch count the API accepts (2..10), Node.from_miller_rice gives that many alternatives, with strictly increasing fractions in (0,1), positive weights, fractions and weights symmetric about 0.5, and weights that sum to 1 within 2e-6; any other count raises KeyError.", "quantifier": "every integer branch count", "why_tests_cant": "A typo in any of 54 table pairs, or an unsupported count, escapes spot checks.", "anchors": ["src/pystrata/logic_tree.py:Node.from_miller_rice"]}
{"id": "C07", "title": "Layer depths are the cumulative thickness after any edit history", "statement": "After constructing a Profile and applying any sequence of append, insert and thickness assignments, each layer's depth is the sum of the thicknesses of the layers above it. A layer in no profile is at depth 0 and assigning its thickness raises AttributeError; assigning the thickness of a layer whose profile no longer holds it or an equal one raises ValueError. In a new profile the depth of each layer is the total thickness of those layers above it that do not equal the last layer; so the depths are right exactly when no layer of positive thickness above the last one equals the last one.", "quantifier": "every initial layer list and every finite sequence of operations (append, insert at any index, thickness setter)", "why_tests_cant": "Histories are unbounded and update_layers is incremental, so errors only appear for particular positions and particular equal-valued layers.", "anchors": ["src/pystrata/site.py:Profile.update_layers", "src/pystrata/site.py:Profile.append", "src/pystrata/site.py:Profile.insert", "src/pystrata/site.py:Layer.thickness", "src/pystrata/site.py:1965-1975"]}
{"id": "C08", "title": "Overburden stress is the weight of the soil above", "statement": "After Profile construction or any edit history, total vertical stress at the top of each layer equals the sum of unit_wt*thickness of the layers above, stress_vert(d) adds d*unit_wt, is rejected for d > thickness, and the stress at the base of a layer equals the stress at the top of the next one. In a new profile the stress at the top of each layer is the total weight of those layers above it that do not equal the last layer.", "quantifier": "every profile, layer, depth within, edit history", "why_tests_cant": "Unbounded profiles and histories.", "anchors": ["src/pystrata/site.py:Layer.stress_vert", "src/pystrata/site.py:Profile.update_layers", "src/pystrata/site.py:Layer.stress_mean"]}
{"id": "C09", "title": "lookup_depth finds the layer containing the depth", "statement": "For a profile with at least one layer and depth >= 0, lookup_depth returns an index i and a depth_within >= 0 with layer[i].depth + depth_within = depth; for a layer above the half-space depth_within < thickness, and depths at or below the top of the half-space return the half-space; a depth exactly on an interface belongs to the layer below it.", "quantifier": "every profile with non-negative thicknesses and every real depth", "why_tests_cant": "Continuum of depths, arbitrary layerings, boundary cases at each interface.", "anchors": ["src/pystrata/site.py:Profile.lookup_depth"]}
{"id": "C10", "title": "location(index=k) addresses layer k", "statement": "For every valid k (negative counts from the end), profile.location(wave_field, index=k) has the index of the k-th layer, depth_within 0; location(depth=d) agrees with lookup_depth; giving both or neither raises NotImplementedError. The three wave fields are found by their names; any other name raises KeyError. An output location made with a name of a wave field is the location of the profile with that wave field; other names are refused with KeyError when it is made. In general the index is that of the first layer equal to layer k; it is k exactly when no earlier layer equals layer k.", "quantifier": "every profile, index, depth; refuted for profiles that contain equal layers, proved when no earlier layer equals layer k", "why_tests_cant": "The failing profiles (equal-valued layers, e.g. after auto_discretize) are not covered by fixed fixtures.", "anchors": ["src/pystrata/site.py:Profile.location", "src/pystrata/site.py:Profile.index", "src/pystrata/site.py:Layer.__eq__", "src/pystrata/motion.py:WaveField", "src/pystrata/output.py:316-338"]}
{"id": "C11", "title": "time_average_vel is depth over the exact vertical travel time", "statement": "time_average_vel(d) equals d divided by the travel time of a vertical ray from the surface to depth d through the layers (the half-space extending infinitely); consequently it lies between the minimum and the maximum layer velocity.", "quantifier": "every profile with positive thicknesses above the half-space and positive velocities, every d > 0", "why_tests_cant": "Continuum of depths and profiles; interpolation and the appended half-space point can only be sampled.", "anchors": ["src/pystrata/site.py:Profile.time_average_vel"]}
{"id": "C12", "title": "vs30 is the time-averaged velocity of the top 30 m", "statement": "profile.vs30() equals 30 m divided by the vertical travel time to 30 m. (Refuted when the half-space is shallower than 30 m: the code then ignores the part of the path in the half-space; proved when the half-space top is at or below 30 m.) It is right exactly when the half-space is at 30 m or deeper, and too large otherwise.", "quantifier": "every profile with positive thicknesses above the half-space, which is not at the surface, and positive velocities", "why_tests_cant": "Only profiles shallower than 30 m fail.", "anchors": ["src/pystrata/site.py:Profile.vs30"]}
{"id": "C13", "title": "auto_discretize preserves the site", "statement": "auto_discretize returns a profile with the same total depth, the same soil type, velocity and minimum damping at every depth, the same half-space, sublayers of equal thickness not exceeding wave_frac * velocity / max_freq for every discretised layer, using the fewest sublayers that achieve this; with nonlinear_only it leaves linear layers as they are; total travel time and site attenuation are unchanged and discretising again changes nothing.", "quantifier": "every profile, every max_freq, wave_frac > 0, both values of nonlinear_only", "why_tests_cant": "Ceil-based counts over real thickness/velocity ratios; boundary cases are measure-zero.", "anchors": ["src/pystrata/site.py:Profile.auto_discretize", "src/pystrata/site.py:Profile.site_attenuation"]}
{"id": "C14", "title": "Discretising layers does not change the linear site response", "statement": "Replacing a layer by any number of sublayers of the same material and the same total thickness leaves the up/down-going wave amplitudes of every other layer, and so every transfer function between the surface and layers outside it, unchanged. In particular auto_discretize of a profile in its initial state changes no linear transfer function between locations at the same depths.", "quantifier": "every layer stack, any split count, any frequency and damping", "why_tests_cant": "Unbounded split counts, all frequencies; numerical tests can only compare a few.", "anchors": ["src/pystrata/propagation.py:_calc_waves_python", "src/pystrata/site.py:Profile.auto_discretize"]}
{"id": "C15", "title": "Pore pressure and effective stress are bounded and monotone", "statement": "Pore pressure is zero at and above the water table, increases with depth below it at the rate g, effective vertical stress never exceeds total vertical stress, equals it above the water table, and is non-negative when every unit weight is at least g and the water table is not above the surface; stress_mean scales vertical stress by (1+2 k0)/3.", "quantifier": "every profile, water-table depth, layer, depth within and k0", "why_tests_cant": "Continuum of inputs.", "anchors": ["src/pystrata/site.py:Profile.pore_pressure", "src/pystrata/site.py:Layer.stress_vert", "src/pystrata/site.py:Layer.stress_mean"]}
{"id": "C16", "title": "copy() reproduces the profile and is independent of it", "statement": "profile.copy() has the same number of layers with the same soil type, thickness, small-strain velocity, minimum damping and water table, and no later change of either profile's layers is visible in the other. (Velocity part refuted after a strain-compatible iteration: the copy's initial velocity is the degraded velocity; proved for freshly reset layers.)", "quantifier": "every profile and every history of strain assignments before the copy", "why_tests_cant": "The failure needs a copy after an equivalent-linear run.", "anchors": ["src/pystrata/site.py:Profile.copy", "src/pystrata/site.py:Layer.copy", "src/pystrata/site.py:Layer.shear_vel"]}
{"id": "C17", "title": "Deriving a profile does not disturb the original", "statement": "Calling auto_discretize, a variation model (thickness, half-space depth, velocity, soil type) or copy on a profile leaves every observable attribute of the original profile's layers unchanged. (Refuted for HalfSpaceDepthVariation, which shares the half-space layer object and so moves the original half-space; proved for copy, Toro thickness and velocity variation; for auto_discretize and vary_profile proved for depths and stresses.) Discretizing a profile without layers raises IndexError.", "quantifier": "every profile and every random draw", "why_tests_cant": "Aliasing between objects is invisible unless the original is inspected afterwards.", "anchors": ["src/pystrata/site.py:Profile.auto_discretize", "src/pystrata/variation.py:HalfSpaceDepthVariation.__call__", "src/pystrata/variation.py:SoilTypeVariation.vary_profile", "src/pystrata/variation.py:VelocityVariation.__call__", "src/pystrata/variation.py:ToroThicknessVariation.__call__"]}
{"id": "C18", "title": "iter_soil_types lists each soil type once", "statement": "Iterating profile.iter_soil_types() gives each distinct soil type of the profile exactly once, in order of first appearance. (Refuted: it yields one soil type per layer; proved: the set of yielded soil types is exactly that of the profile.)", "quantifier": "every profile", "why_tests_cant": "Whether duplicates occur depends on how many layers share a soil type.", "anchors": ["src/pystrata/site.py:Profile.iter_soil_types"]}
{"id": "C19", "title": "Nonlinear curve output always lies within its limits", "statement": "Calling a modulus-reduction or damping curve at any strain (including zero and negative) returns a value within the curve's limits: by default [0.001, 1] for modulus reduction and [0, 0.49] for damping.", "quantifier": "every curve with positive increasing strains, values and limits with min <= max, and every real strain", "why_tests_cant": "Continuum of strains and curves.", "anchors": ["src/pystrata/site.py:NonlinearCurve.__call__", "src/pystrata/site.py:ModulusReductionCurve", "src/pystrata/site.py:DampingCurve"]}
{"id": "C20", "title": "Nonlinear curve interpolation is log-linear, exact at the points, constant outside", "statement": "For increasing positive strains, the curve returns the (clipped) tabulated value at each tabulated strain >= 1e-9, the first/last value outside the table, a value between the neighbouring tabulated values in between, linear in log strain; and if the tabulated values are monotone, the curve is monotone in strain.", "quantifier": "every table with strictly increasing positive strains, every real strain", "why_tests_cant": "Continuum of strains, unbounded tables.", "anchors": ["src/pystrata/site.py:NonlinearCurve.__call__", "src/pystrata/site.py:NonlinearCurve._update"]}
{"id": "C21", "title": "Layer damping is the soil curve shifted to the layer's minimum damping", "statement": "Setting a layer's strain gives damping = curve(strain) - curve's first value + layer.damping_min for a nonlinear soil and damping_min for a linear one; at strains at or below the first tabulated strain, when the first tabulated value is within the limits, the damping equals layer.damping_min; the shear modulus is initial modulus times the curve value and so never exceeds the initial modulus nor drops below a thousandth of it with the default limits.", "quantifier": "every layer, soil type, strain history", "why_tests_cant": "All histories of strain assignments and all curves.", "anchors": ["src/pystrata/site.py:Layer.strain", "src/pystrata/site.py:Layer._compute_damping", "src/pystrata/site.py:SoilType.damping_min"]}
{"id": "C22", "title": "Complex shear modulus has the right magnitude and is dissipative", "statement": "The complex shear modulus used in wave propagation has absolute value equal to the strain-compatible shear modulus, real part > 0, imaginary part = 2*G*(damping clipped to [0,0.49]) >= 0; the complex shear-wave velocity squared times density is the complex modulus, and the velocity has positive real part and non-negative imaginary part.", "quantifier": "every positive shear modulus, density and every real damping", "why_tests_cant": "Continuum of dampings including those outside [0,0.49].", "anchors": ["src/pystrata/site.py:Layer.comp_shear_mod", "src/pystrata/site.py:Layer.comp_shear_vel"]}
{"id": "C23", "title": "reset forgets the iteration history", "statement": "After layer.reset() (also triggered by assigning damping_min or initial_shear_vel) the layer's modulus, damping and strain state equal those of a newly built layer with the same soil type, thickness, initial velocity and minimum damping, whatever strains were assigned before; reset is idempotent. The values of a new or reset layer are the small-strain modulus, the minimum damping and a strain of 1e-6; assigning a strain to a layer of linear soil replaces the iterated strain by a number until the next reset.", "quantifier": "every layer and every history of assignments", "why_tests_cant": "Histories are unbounded.", "anchors": ["src/pystrata/site.py:Layer.reset", "src/pystrata/site.py:Layer.damping_min", "src/pystrata/site.py:Layer.initial_shear_vel"]}
{"id": "C24", "title": "relative_error bounds the change between iterations", "statement": "If relative_error is below a tolerance tol (percent) and the value is positive, then the previous and current values differ by at most tol percent of the current value. (Refuted: the error is signed, so any increase of the value is reported as a negative error; proved one-sided: previous <= value*(1+tol/100).)", "quantifier": "every pair of consecutive values and tolerance", "why_tests_cant": "Needs an increasing iterate, which typical degradation runs do not show.", "anchors": ["src/pystrata/site.py:IterativeValue.relative_error", "src/pystrata/site.py:Layer.max_error"]}
{"id": "C25", "title": "Displacement and traction are continuous across every interface", "statement": "For every profile, frequency > 0 and interface, the within displacement at the base of the upper layer equals that at the top of the lower layer, and the damped stress (complex modulus times strain) is equal on both sides.", "quantifier": "every number of layers, thicknesses, complex moduli and velocities (non-zero), every frequency the code does not treat as zero (above 1e-8 rad/s)", "why_tests_cant": "Unbounded layer stacks and a continuum of frequencies.", "anchors": ["src/pystrata/propagation.py:_calc_waves_python", "src/pystrata/propagation.py:_wave_at_location_python", "src/pystrata/propagation.py:_calc_strain_tf_python"]}
{"id": "C26", "title": "The ground surface is traction free", "statement": "The strain and stress transfer functions at depth 0 of the top layer are zero at every frequency, and within and outcrop motions coincide at the surface.", "quantifier": "every profile with non-zero velocities and moduli, every frequency, every input location at which the wave field does not vanish", "why_tests_cant": "Continuum of frequencies and profiles.", "anchors": ["src/pystrata/propagation.py:_calc_strain_tf_python", "src/pystrata/propagation.py:LinearElasticCalculator.calc_strain_tf", "src/pystrata/propagation.py:LinearElasticCalculator.wave_at_location"]}
{"id": "C27", "title": "The strain transfer function is the depth derivative of displacement", "statement": "For non-zero frequency the strain transfer function times (-w^2) times the input wave divided by gravity is exactly the derivative with respect to depth of the within displacement in that layer; and the within displacement satisfies the damped wave equation G* u'' = -rho w^2 u.", "quantifier": "every layer, depth within, frequency", "why_tests_cant": "A derivative identity over a continuum.", "anchors": ["src/pystrata/propagation.py:_calc_strain_tf_python", "src/pystrata/propagation.py:LinearElasticCalculator.calc_strain_tf", "src/pystrata/propagation.py:LinearElasticCalculator.calc_stress_tf"]}
{"id": "C28", "title": "Transfer functions compose", "statement": "calc_accel_tf(a,a) = 1, calc_accel_tf(a,b)*calc_accel_tf(b,c) = calc_accel_tf(a,c), and outcrop motion is twice the incoming-only motion, wherever the wave at the locations is non-zero.", "quantifier": "every three locations of a profile at which the wave field does not vanish, every frequency", "why_tests_cant": "All triples of locations.", "anchors": ["src/pystrata/propagation.py:LinearElasticCalculator.calc_accel_tf", "src/pystrata/propagation.py:_wave_at_location_python"]}
{"id": "C29", "title": "Outcrop transfer functions never divide by zero", "statement": "For every profile of layers with positive density and velocity and damping in [0, 0.49], and every frequency > 0, the up-going wave amplitude of every layer is non-zero, so transfer functions relative to any outcrop or incoming-only location are well defined; moreover energy flows upward (net flux is non-negative) at every depth.", "quantifier": "every number of layers, thicknesses >= 0, dampings, frequencies", "why_tests_cant": "A zero at one frequency of one profile would be a measure-zero event that no grid test hits.", "anchors": ["src/pystrata/propagation.py:_calc_waves_python", "src/pystrata/propagation.py:LinearElasticCalculator.calc_accel_tf"]}
{"id": "C30", "title": "Without damping, wave energy is conserved", "statement": "For zero damping in all layers, the up- and down-going amplitudes have equal magnitude in every layer at every frequency.", "quantifier": "every undamped profile and frequency", "why_tests_cant": "Unbounded stacks; continuum of frequencies.", "anchors": ["src/pystrata/propagation.py:_calc_waves_python"]}
{"id": "C31", "title": "At zero frequency the profile moves rigidly", "statement": "At angular frequency 0 every wave amplitude is 1, so acceleration transfer functions between within locations, and between outcrop locations, are 1 and strain transfer functions are 0.", "quantifier": "every profile with non-zero velocities and moduli, every location", "why_tests_cant": "Special branch; depends on nan handling in every layer.", "anchors": ["src/pystrata/propagation.py:_calc_waves_python", "src/pystrata/propagation.py:_calc_waves_numba", "src/pystrata/propagation.py:_calc_strain_tf_python"]}
{"id": "C32", "title": "The compiled and the pure-Python kernels agree", "statement": "For every input, the numba and the numpy implementations of wave propagation, wave at location and strain transfer function give the same result in exact arithmetic. (At |w| = 1e-8 exactly, which isclose accepts and '<' does not, the zero-frequency treatment differs; that exception is proved too.)", "quantifier": "every profile, frequency and location", "why_tests_cant": "Two separately written loops; agreement must hold on all inputs.", "anchors": ["src/pystrata/propagation.py:_calc_waves_python", "src/pystrata/propagation.py:_calc_waves_numba", "src/pystrata/propagation.py:_wave_at_location_numba", "src/pystrata/propagation.py:_calc_strain_tf_numba", "src/pystrata/propagation.py:_my_trapz_impl"]}
{"id": "C33", "title": "A uniform site does not amplify", "statement": "If all layers have the same complex velocity and modulus, the waves are exactly exp(+-i k z); so the outcrop-to-surface transfer function has no reflections: surface outcrop over depth-z outcrop is exp(-i k z), and over depth-z within is 1/cos(k z).", "quantifier": "every number of layers, thicknesses and frequency (within motion: away from its zeros)", "why_tests_cant": "Unbounded layerings of the same material.", "anchors": ["src/pystrata/propagation.py:_calc_waves_python"]}
{"id": "C34", "title": "Equivalent-linear iteration stops within max_iterations", "statement": "EquivalentLinearCalculator performs at most max_iterations strain iterations for any motion, profile and strain model, never skips the final maximum-strain computation unless it raises, and raises only RuntimeError('Strain limit exceeded.').", "quantifier": "every strain response (as a function of the layer state), tolerance, limit, max_iterations", "why_tests_cant": "Loop behaviour depends on arbitrary response functions.", "anchors": ["src/pystrata/propagation.py:EquivalentLinearCalculator.__call__"]}
{"id": "C35", "title": "The strain limit is enforced", "statement": "With a strain limit set, no layer above the half-space is left with an iterated strain above the limit; An iteration counts as limited exactly when a nonzero limit is set and some layer above the half-space was given a strain above it, so without a limit nothing is raised. RuntimeError is raised exactly when two consecutive non-converged iterations had to limit a strain.", "quantifier": "every response function, layer count, history of iterations", "why_tests_cant": "All iteration histories.", "anchors": ["src/pystrata/propagation.py:EquivalentLinearCalculator.__call__"]}
{"id": "C36", "title": "Equivalent-linear analysis of linear soil is linear-elastic analysis", "statement": "If every soil type is linear, EquivalentLinearCalculator stops after one iteration and gives the same waves (hence transfer functions) as LinearElasticCalculator.", "quantifier": "every linear profile, motion and calculator setting (with max_iterations >= 1, tolerance > 0)", "why_tests_cant": "All linear profiles including zero damping.", "anchors": ["src/pystrata/propagation.py:EquivalentLinearCalculator.__call__", "src/pystrata/propagation.py:LinearElasticCalculator.__call__"]}
{"id": "C37", "title": "When the equivalent-linear loop stops early the properties have converged", "statement": "If the calculator stops before max_iterations without error, modulus and damping of all layers changed by less than tolerance percent in the last iteration. (Refuted because the error is signed; proved one-sided; also proved: a half-space whose nonlinear modulus drops by more than the tolerance in the initial estimate prevents early stopping for ever.)", "quantifier": "every response function and profile", "why_tests_cant": "Needs particular nonlinear responses.", "anchors": ["src/pystrata/propagation.py:EquivalentLinearCalculator.__call__", "src/pystrata/site.py:Profile.max_error", "src/pystrata/site.py:IterativeValue.relative_error"]}
{"id": "C38", "title": "A calculator run does not depend on what was run before", "statement": "Calling a calculator with reset_layers=True gives layer states, waves and iteration counts that depend only on motion, profile definition and location, not on strains left in the layers by earlier runs.", "quantifier": "every history of earlier runs", "why_tests_cant": "Unbounded histories.", "anchors": ["src/pystrata/propagation.py:AbstractCalculator.__call__", "src/pystrata/propagation.py:EquivalentLinearCalculator._estimate_strains", "src/pystrata/site.py:Layer.reset"]}
{"id": "C39", "title": "Frequency-dependent strains are bounded by the effective strain", "statement": "In the frequency-dependent calculator the strain at each frequency is non-negative and at most strain_ratio times the peak strain, for all three methods; for the zr15 and ko methods the maximum equals it; for ko the strain is non-increasing with frequency. The reference strain of ka02 is at most the largest amplitude below the average frequency, and if the amplitudes from there upwards follow the two-parameter shape exactly, a least-squares fit makes the strains follow it.", "quantifier": "every strain spectrum, frequency vector and smoothing result with a positive maximum", "why_tests_cant": "Continuum of spectra.", "anchors": ["src/pystrata/propagation.py:FrequencyDependentEqlCalculator._calc_strain"]}
{"id": "C40", "title": "my_trapz is the depth average of a layered property", "statement": "my_trapz(thickness, prop, d) equals the integral of the piecewise-constant property from 0 to d divided by d, the last layer extending to infinity; so it lies between the minimum and maximum of the property and equals the property for a uniform profile.", "quantifier": "every non-empty layer list with non-negative thicknesses, every d > 0", "why_tests_cant": "Continuum of depths with boundary cases at each interface.", "anchors": ["src/pystrata/propagation.py:_my_trapz_python", "src/pystrata/propagation.py:_my_trapz_impl"]}
{"id": "C41", "title": "Quarter-wavelength calculation converges or raises; a uniform site has unit amplification", "statement": "The QWL calculation either raises RuntimeError after 50 iterations or returns with every quarter-wavelength depth within 1% (plus 1e-8) of its previous iterate; for a uniform profile it converges at once with crustal amplification 1 at all frequencies; crustal_amp is positive; site_term = crustal_amp * exp(-pi*kappa*f) and equals crustal_amp when no site attenuation is given. With the method 'ba23' the exponent is the formula of Boore and Abrahamson of the ratio of the frequency and 1 / (4 T), T being the travel time through the layers above the half-space: zero at a ratio of 10 ** -1.301, 0.56 / 0.76 ** 0.333 at 10 ** 0.097, defined and not negative for every larger ratio than the first. Any other method than 'standard' and 'ba23' is refused with NotImplementedError once the depths have converged.", "quantifier": "every profile with positive properties and every positive frequency vector", "why_tests_cant": "Continuum of profiles and frequencies; loop termination.", "anchors": ["src/pystrata/propagation.py:QuarterWaveLenCalculator._calc_amp", "src/pystrata/propagation.py:371-443"]}
{"id": "C42", "title": "Fourier length and frequency vector are consistent", "statement": "For a time series of n samples the Fourier length is the smallest power of two >= n, frequencies are k/(N dt) for k = 0..N/2 (the last being the Nyquist frequency), and there are as many frequencies as Fourier amplitudes. The k-th Fourier amplitude is dt times the discrete Fourier sum of the zero-padded record at the k-th frequency. (Length agreement refuted for odd fa_length and for records with at most one sample; proved for all even lengths.)", "quantifier": "every record length, time step other than 0 and fa_length", "why_tests_cant": "All lengths; failing ones are odd or degenerate.", "anchors": ["src/pystrata/motion.py:TimeSeriesMotion._calc_fourier_spectrum", "src/pystrata/motion.py:TimeSeriesMotion.freqs", "src/pystrata/motion.py:TimeSeriesMotion.fourier_amps"]}
{"id": "C43", "title": "Without a transfer function the time series is the input, zero padded", "statement": "calc_time_series() returns the acceleration values followed by zeros up to the Fourier length, whatever the record; applying a constant transfer function c scales it by c; calc_time_series is additive in the transfer function. A transfer function whose length differs from the number of Fourier amplitudes (neither being 1) is refused with ValueError by the time series, peak, Arias intensity and CAV.", "quantifier": "every record and even Fourier length >= record length", "why_tests_cant": "All records; an identity of the discrete Fourier transform for every size.", "anchors": ["src/pystrata/motion.py:TimeSeriesMotion.calc_time_series", "src/pystrata/motion.py:TimeSeriesMotion._calc_fourier_spectrum"]}
{"id": "C44", "title": "Intensity measures are non-negative and scale correctly", "statement": "PGA, Arias intensity and CAV are non-negative; scaling the motion by c scales peak and CAV by |c| and Arias intensity by c^2; they are zero iff the response time series is zero (up to the two end points for a single sample). Arias intensity is pi g/2 times, and CAV g times, the trapezoidal sum of the squared and absolute accelerations.", "quantifier": "every time series, time step > 0, scale factor", "why_tests_cant": "Continuum of records.", "anchors": ["src/pystrata/motion.py:TimeSeriesMotion.calc_peak", "src/pystrata/motion.py:TimeSeriesMotion.calc_arias_intensity", "src/pystrata/motion.py:TimeSeriesMotion.calc_cav"]}
{"id": "C45", "title": "The oscillator transfer function is well defined and has the right limits", "statement": "For osc_freq > 0 and damping > 0 the denominator never vanishes, the transfer function is 1 at zero frequency, has magnitude 1/(2*damping) at the oscillator frequency, and tends to the static value for very stiff oscillators.", "quantifier": "every oscillator frequency > 0, damping > 0 and motion frequency", "why_tests_cant": "Continuum; a vanishing denominator is a measure-zero event.", "anchors": ["src/pystrata/motion.py:TimeSeriesMotion._calc_sdof_tf", "src/pystrata/motion.py:TimeSeriesMotion.calc_osc_accels"]}
{"id": "C46", "title": "Every recorded result can be read back unchanged", "statement": "After any sequence of output calls recording arrays of any lengths, column i of the output holds exactly the i-th recorded array followed by NaN padding up to the longest recorded length; earlier columns are never altered by later ones except for extra padding.", "quantifier": "every sequence of recorded arrays of every length", "why_tests_cant": "Unbounded histories with arbitrary length mixtures (1-D to 2-D transition included).", "anchors": ["src/pystrata/output.py:append_arrays", "src/pystrata/output.py:Output._add_values", "src/pystrata/output.py:Output._add_refs"]}
{"id": "C47", "title": "Output names stay in step with results", "statement": "After any number of successful calls without reset the output has as many names as results, automatic names are r1, r2, ... and distinct, and reset returns the output to its initial state, keeping the references only for outputs with fixed references.", "quantifier": "every history of calls, named and unnamed, and resets", "why_tests_cant": "Unbounded histories.", "anchors": ["src/pystrata/output.py:Output.__call__", "src/pystrata/output.py:Output.reset", "src/pystrata/output.py:Output.iter_results"]}
{"id": "C48", "title": "A failing output call leaves the output unchanged", "statement": "If computing a result raises, the output's names, references and values are as before the call, so later results are still labelled correctly. (Refuted: the name is recorded before the computation, so one failure shifts all later labels; proved: refs and values are unchanged for the location-based outputs.)", "quantifier": "every history with failures at any point", "why_tests_cant": "Needs fault injection at each point.", "anchors": ["src/pystrata/output.py:Output.__call__", "src/pystrata/output.py:ResponseSpectrumOutput.__call__", "src/pystrata/output.py:Output.iter_results"]}
{"id": "C49", "title": "Arias-intensity time series is non-decreasing and ends at the Arias intensity", "statement": "AriasIntensityTSOutput values never decrease and the last one equals the motion's Arias intensity for the same transfer function; each value is the intensity accumulated up to the associated time. (Time association refuted: there is one value fewer than samples and value i is labelled i*dt but is accumulated up to (i+1)*dt.)", "quantifier": "every time series with at least two samples, time step > 0", "why_tests_cant": "Continuum of records.", "anchors": ["src/pystrata/output.py:AriasIntensityTSOutput._modify_values", "src/pystrata/output.py:TimeSeriesOutput.__call__", "src/pystrata/motion.py:TimeSeriesMotion.calc_arias_intensity"]}
{"id": "C50", "title": "Median statistics are order independent and within the data", "statement": "For positive results, calc_stats gives for each reference a median between the smallest and largest recorded value, unchanged by reordering the realizations, equal to the common value with zero ln_std when all are equal, scaling with the data; missing (padded) entries are ignored. Before the first result calc_stats raises TypeError. The statistics of any row are stated in full: missing and negative entries are left out, a zero gives median zero and ln_std NaN.", "quantifier": "every table of positive values", "why_tests_cant": "All permutations and tables.", "anchors": ["src/pystrata/output.py:Output.calc_stats"]}
{"id": "C51", "title": "Toro thickness variation fills exactly the original depth", "statement": "For any sequence of positive exponential increments, the generated thicknesses are positive, sum exactly to the depth of the original soil column, every generated layer takes soil type, velocity and damping of the original layer at its mid-depth (the lookup never fails), and the half-space is appended with zero thickness and the original soil type and velocity. (Half-space minimum damping is reset to the soil type's value.) A profile of fewer than two layers raises IndexError.", "quantifier": "every profile with positive thicknesses, parameters with c_1 > 0, c_3 > 0, c_2 > -1, and every increment sequence", "why_tests_cant": "Random process; all draws.", "anchors": ["src/pystrata/variation.py:ToroThicknessVariation.iter_thickness", "src/pystrata/variation.py:ToroThicknessVariation.__call__"]}
{"id": "C52", "title": "Half-space depth variation reaches the sampled depth", "statement": "For any sampled depth >= 0 the varied profile's half-space top is at exactly that depth, all thicknesses are non-negative, the layers above the affected one are unchanged, and when the profile is extended the added layers have the material of the last layer and equal thickness between one and two times the original last thickness.", "quantifier": "every profile with positive thicknesses and every sampled depth >= 0", "why_tests_cant": "Continuum of samples, boundary cases at interfaces and multiples.", "anchors": ["src/pystrata/variation.py:HalfSpaceDepthVariation.__call__"]}
{"id": "C53", "title": "Velocity variation stays within the truncation limits", "statement": "Every varied velocity is within a factor exp(+-limit*sigma) of the seed velocity, is positive, and the half-space velocity is kept unless vary_bedrock is set; thicknesses, soil types and dampings are kept.", "quantifier": "every profile with positive velocities, random draw, sigma vector and limit", "why_tests_cant": "All random draws.", "anchors": ["src/pystrata/variation.py:VelocityVariation.__call__"]}
{"id": "C54", "title": "Toro correlations are valid correlations", "statement": "For parameters rho_0, rho_200 in [0,1], delta > 0, h_0 >= 0, b >= 0, every inter-layer correlation is in [0,1] and the one to the half-space is 1; there is one per layer interface; the covariance matrix is symmetric with the variances on the diagonal and |cov| <= product of the standard deviations. (That the matrix is a valid, positive semidefinite, covariance matrix is refuted.)", "quantifier": "every profile with increasing mid-depths and all parameters", "why_tests_cant": "Continuum of parameters; definiteness is a property of all vectors.", "anchors": ["src/pystrata/variation.py:ToroVelocityVariation._calc_corr", "src/pystrata/variation.py:VelocityVariation._calc_covar_matrix"]}
{"id": "C55", "title": "Varied nonlinear curves stay within the limits and SPID keeps their shape", "statement": "Every varied modulus-reduction and damping value lies within the configured limits for any random draw; the SPID model keeps the order of modulus-reduction values in [0,1] and of damping values, increases them with the random variable, and returns damping unchanged for a zero draw; the Darendeli standard deviations are positive for modulus reduction in [0,1].", "quantifier": "every curve (modulus reduction in [0, 1], damping >= 0) and random draw", "why_tests_cant": "All draws.", "anchors": ["src/pystrata/variation.py:SoilTypeVariation.__call__", "src/pystrata/variation.py:SpidVariation._get_varied", "src/pystrata/variation.py:DarendeliVariation._get_varied"]}
{"id": "C56", "title": "Percentile sampling is deterministic, bounded and cycles evenly", "statement": "In fixed_percentiles mode construction rejects an empty list or values outside (0,1); realization i of iter_varied_profiles uses percentile i mod n; each percentile is used exactly count/n times; a count not divisible by n raises ValueError before any profile is produced; both variates are within +-limit; in random mode no index is forwarded.", "quantifier": "every percentile list and count", "why_tests_cant": "All list lengths and counts.", "anchors": ["src/pystrata/variation.py:SoilTypeVariation.__init__", "src/pystrata/variation.py:SoilTypeVariation.__call__", "src/pystrata/variation.py:TruncatedNorm.correlated_at_percentile", "src/pystrata/variation.py:iter_varied_profiles"]}
{"id": "C57", "title": "Soil-type variation treats layers of one soil type alike", "statement": "vary_profile gives layers that share a soil type object the same varied soil type, layers with different soil types never share one, keeps thickness, velocity, layer minimum damping and order, and keeps the half-space itself unless vary_bedrock is set. A profile without layers is refused with IndexError unless the bedrock is varied too.", "quantifier": "every profile and every stream of random draws", "why_tests_cant": "Depends on sharing patterns and draws.", "anchors": ["src/pystrata/variation.py:SoilTypeVariation.vary_profile", "src/pystrata/site.py:Profile.iter_soil_types"]}
{"id": "C58", "title": "Fixed-width parsing inverts fixed-width formatting", "statement": "If values are written in fields of the given widths, grouped into non-empty lines of any number of fields, parse_fixed_width returns the fields in order and consumes exactly those lines; it always returns one value per requested field or raises when lines run out.", "quantifier": "every list of fields, widths and grouping", "why_tests_cant": "All groupings and widths.", "anchors": ["src/pystrata/tools.py:parse_fixed_width", "src/pystrata/motion.py:TimeSeriesMotion.load_smc_file"]}
{"id": "C59", "title": "Every option block of a SHAKE file is parsed", "statement": "load_shake_inp processes every option block in the file in order. An option line is white space, decimal digits and the end of the line, and its option is the decimal number written. (Refuted: the last block is never processed; proved: exactly the blocks followed by another option line are processed.)", "quantifier": "every sequence of option blocks", "why_tests_cant": "Files of every length; test files are few.", "anchors": ["src/pystrata/tools.py:load_shake_inp"]}
{"id": "C60", "title": "English units in SHAKE files are converted", "statement": "For a SHAKE file whose units line is 'english', thicknesses and velocities are multiplied by 0.3048. (Refuted: the line keeps its newline, so the comparison never succeeds when another line follows; if it did, the conversion would raise.)", "quantifier": "every file", "why_tests_cant": "Needs an English-unit file.", "anchors": ["src/pystrata/tools.py:load_shake_inp", "src/pystrata/tools.py:_parse_soil_profile"]}
{"id": "C61", "title": "Quality factor conversion gives damping 1/(2Q)", "statement": "profile_from_nrattle_ctl maps an entry q > 1 to damping 1/(2q), an entry in (1e-8, 1] (an inverse Q) to q/2, and entries within 1e-8 of zero to 0; the damping is never above 0.5; lengths are scaled from km to m and unit weight is g*density; the half-space is appended with zero thickness and damping.", "quantifier": "every entry and profile", "why_tests_cant": "Continuum with boundary at 1 and near 0.", "anchors": ["src/pystrata/tools.py:profile_from_nrattle_ctl"]}
{"id": "C62", "title": "Mean effective stress at mid-layer is overburden minus pore pressure", "statement": "calc_mean_eff_stress(depths, unit_wt, wt, k0) equals, for each layer, (1+2k0)/3 times (weight of the soil above the layer's mid-depth minus 9.81*max(0, mid-depth - wt)); it agrees with Profile stresses when the water table is below the layer.", "quantifier": "every non-decreasing depth vector, unit weights, water table, k0", "why_tests_cant": "Unbounded layer counts, continuum of values.", "anchors": ["src/pystrata/tools.py:calc_mean_eff_stress", "src/pystrata/site.py:Layer.stress_mean"]}
{"id": "C63", "title": "adjust_damping_values attains the target attenuation", "statement": "After adjust_damping_values the site attenuation of the adjusted layers plus the scattering plus the excluded layers' attenuation equals the target; damping is inversely proportional to velocity; it raises RuntimeError when no layer is selected or when the target does not exceed scattering plus excluded attenuation. (Equality refuted when an excluded layer lies above a selected one, whose thickness is then attributed to the selected layer above it; proved when the selected layers are contiguous from the top and the last selected layer has zero thickness.)", "quantifier": "every profile with nonzero velocities, every target and exclusion set", "why_tests_cant": "Continuum of profiles and all exclusion patterns.", "anchors": ["src/pystrata/tools.py:adjust_damping_values", "src/pystrata/site.py:Layer.incr_site_atten", "src/pystrata/site.py:Profile.site_attenuation"]}
{"id": "C64", "title": "Profile simplification preserves the profile up to the tolerance", "statement": "load_ncm_profile(simplify=True) groups consecutive layers: the groups partition the layers in order, every member's velocity is within tol of the group's first, neighbouring groups cannot be merged by the rule, and each group's velocity gives exactly the group's travel time, is between the group's extreme velocities; the total travel time is preserved. (Preservation refuted when the half-space is merged into the last group: that group's thickness is then lost.) Loading without simplification gives each row its depth, velocity, unit weight density*9.81/1000, mean effective stress for k0 = 0.5 and thickness, and returns the water table of the first result. A response without results or with columns of unequal lengths is a ValueError, one without depths an IndexError.", "quantifier": "every layered profile with positive velocities, every tolerance", "why_tests_cant": "Unbounded profiles.", "anchors": ["src/pystrata/generic.py:_simplify_profile", "src/pystrata/generic.py:load_ncm_profile"]}
{"id": "C65", "title": "Generic velocity profile increases with depth and accepts the documented regions", "statement": "kea16_profile gives a velocity that is a0 at the surface and strictly increases with depth for vs30 > 0, for both regions; it accepts the documented region names 'California' and 'Japan'. (Region names refuted: only the lower-case names are accepted.) At depths >= 0 the velocity and standard deviation are those of Equations 3 to 4a with the region's coefficients.", "quantifier": "every depth >= 0, vs30 > 0 and region string", "why_tests_cant": "Continuum of depths.", "anchors": ["src/pystrata/generic.py:kea16_profile"]}
{"id": "C67", "title": "Modified-hyperbolic damping curves never decrease", "statement": "For every ModifiedHyperbolicSoilType and positive strains the tabulated damping is never NaN, non-decreasing with strain index, at least d_correction + damping_min at each strain, and shifts exactly with damping_min. A strain of zero in the table makes the damping there and at every later strain NaN.", "quantifier": "every table of positive strains, parameters and damping_min; every table with a zero strain", "why_tests_cant": "Unbounded tables.", "anchors": ["src/pystrata/site.py:ModifiedHyperbolicSoilType.__init__"]}
{"id": "C68", "title": "Wang-Stokoe models use exactly the available information", "statement": "For every soil group and model, get_level is the number of leading required parameters supplied minus one, and computing Gmax, G/Gmax, minimum damping or damping with any set of supplied parameters succeeds (uses no missing parameter) iff stress_mean is supplied; an unknown soil group raises KeyError.", "quantifier": "every soil group, model and subset of parameters; values in the ordinary ranges where powers are taken", "why_tests_cant": "2^8 subsets times continuum of values for twelve formula families.", "anchors": ["src/pystrata/site.py:WangSoilType.get_level", "src/pystrata/site.py:WangSoilType.calc_shear_mod", "src/pystrata/site.py:WangSoilType.calc_mod_reduc", "src/pystrata/site.py:WangSoilType.calc_damping_min", "src/pystrata/site.py:WangSoilType.calc_damping"]}
{"id": "C69", "title": "Percent inputs are converted exactly once", "statement": "WangSoilType.calc_damping without damping_min gives the same curve as with damping_min=calc_damping_min(same inputs). (Refuted: the inner call converts fines_cont, plas_index and water_cont from percent a second time; proved when none of these is supplied, and for curves built by the constructor.)", "quantifier": "every soil group and parameter set with values in the ordinary ranges, positive mean stress, strains >= 0", "why_tests_cant": "Only parameter sets with percent quantities and this call path show it.", "anchors": ["src/pystrata/site.py:to_decimal", "src/pystrata/site.py:WangSoilType.calc_damping", "src/pystrata/site.py:WangSoilType.__init__"]}
{"id": "C70", "title": "The computed motion is the unique solution of the layered wave equation", "statement": "For every profile and every frequency above the zero threshold, the within motion returned by wave_at_location, as a function of depth, satisfies the equation of motion of a viscoelastic medium in every layer, is traction free at the surface and continuous in displacement and stress at every interface; and every function that does so with the same surface amplitude equals it at every depth.", "quantifier": "every number of layers, thickness, modulus, density, damping; every frequency above 1e-8 rad/s; every competing solution of the boundary value problem", "why_tests_cant": "Tests compare a few transfer functions with reference programs; that the recurrence solves the boundary value problem for all stacks, and that the solution is unique, needs a proof.", "anchors": ["src/pystrata/propagation.py:_calc_waves_python", "src/pystrata/propagation.py:LinearElasticCalculator.wave_at_location"]}
{"id": "C71", "title": "Quarter-wavelength iteration converges for velocities increasing with depth", "statement": "If slowness does not increase with depth and the ratio of the largest to the smallest slowness is at most 1.01^50, the 50 iterations of the QWL calculator suffice at every set of frequencies (no RuntimeError). With a velocity inversion the averaged iteration can cycle for ever between two depths and raise.", "quantifier": "every profile with velocities non-decreasing with depth, every positive frequency vector, every iteration count n with ratio <= 1.01^n", "why_tests_cant": "Convergence of an iteration for all profiles and all frequencies at once.", "anchors": ["src/pystrata/propagation.py:QuarterWaveLenCalculator._calc_amp"]}
{"id": "C72", "title": "Peak velocity ignores the mean and the Nyquist component", "statement": "calc_pgv scales with |c| when the record is scaled by c; a constant record has zero peak velocity (the zero-frequency component is dropped), and so has an alternating record +a, -a, ... whose peak acceleration is |a| (the Nyquist component is multiplied by an imaginary factor and dropped by the inverse transform). In general the peak velocity is 100 g times the peak, over the sample times, of a trigonometric polynomial that is an antiderivative of the record: its derivative at every sample is that sample less the mean of the record and its alternating (Nyquist) component, unless the record is so long (more than about 20 years) that its slowest harmonics count as zero.", "quantifier": "every scale factor, amplitude, time step, even length and transfer function", "why_tests_cant": "The two blind spots need records without padding; tests compare one recorded motion with a stored number.", "anchors": ["src/pystrata/motion.py:TimeSeriesMotion.calc_pgv"]}
{"id": "C73", "title": "Profile outputs give the value of the layer at each depth", "statement": "For profile outputs of initial and strain-compatible velocity, damping and modulus reduction, the value that calc_stats and to_dataframe use at any depth z with top < z <= bottom of layer i is the value of layer i, at the surface that of the first layer and below the profile that of the last layer above the half-space, independent of the padding of the columns. (Refuted for maximum strain and cyclic stress ratio, which use the value of the next layer in the lower half of each layer; statistics of a single result raise IndexError.) After any history with two or more results since the last reset the statistics raise no exception and are those of the interpolated values of the results.", "quantifier": "every number of layers, every increasing depths, every values, padding and depth", "why_tests_cant": "Tests only check that outputs run; which layer is reported at which depth is an invariant over all depths.", "anchors": ["src/pystrata/output.py:ProfileBasedOutput._ln_interp", "src/pystrata/output.py:InitialVelProfile", "src/pystrata/output.py:CompatVelProfile", "src/pystrata/output.py:DampingProfile", "src/pystrata/output.py:ShearModReducProfile", "src/pystrata/output.py:MaxStrainProfile"]}
{"id": "C74", "title": "Toro correlation uses the distance of the mid-depths", "statement": "The separation entering the inter-layer correlation is the difference of the mid-depths of the two layers, as the comment in the code says. (Refuted: the code uses half the distance between the mid-depths two layers apart; both agree for equally spaced mid-depths.)", "quantifier": "every list of mid-depths", "why_tests_cant": "Tests use equal layers or do not check correlations; agreement for all spacings needs a proof.", "anchors": ["src/pystrata/variation.py:ToroVelocityVariation._calc_corr"]}
{"id": "C75", "title": "Darendeli variation keeps curves monotonic", "statement": "For limits within [0,1] (damping: lower limit at least 0), clipping the values varied with the Darendeli standard deviations keeps the order of the modulus-reduction and damping values for every draw; without clipping the order is not kept.", "quantifier": "every draw, limits and pair of values", "why_tests_cant": "The unclipped values are not monotonic, so monotonicity depends on an interplay of curvature and clipping at all draws.", "anchors": ["src/pystrata/variation.py:DarendeliVariation._get_varied", "src/pystrata/variation.py:SoilTypeVariation.__call__"]}
{"id": "C76", "title": "Percentile pairs respect the sign of the correlation", "statement": "The second variate of a percentile pair has the sign of the first for a non-negative and the opposite sign (or zero) for a negative correlation. (Refuted for correlations strictly between -1/sqrt(2) and 0, such as -0.5, where both variates have the same sign.)", "quantifier": "every limit, correlation in [-1,1] and positive first variate", "why_tests_cant": "A continuum of correlations; the failure is limited to a range.", "anchors": ["src/pystrata/variation.py:TruncatedNorm.correlated_at_percentile"]}
{"id": "C77", "title": "Sample indices cycle through the percentiles", "statement": "As the class documentation says, a call with sample_index uses percentiles[sample_index % len(percentiles)]. (Refuted for indices beyond the list, which raise IndexError; the documentation of __call__ asks for an index within range, so the two documents disagree. Only iter_varied_profiles applies the modulus.)", "quantifier": "every percentile list and index", "why_tests_cant": "All indices.", "anchors": ["src/pystrata/variation.py:SoilTypeVariation.__call__"]}
{"id": "C78", "title": "Truncated normal draws stay within the limit", "statement": "The draws of TruncatedNorm.__call__ are within +-limit, as documented for the limit 2. (Refuted: the truncation limits are scaled as well, so the draws range over +-limit/sqrt(v), v < 1 being the variance of the truncated distribution.) With the exact distribution, a draw exceeds the limit with positive probability for every limit.", "quantifier": "every limit, variance and draw", "why_tests_cant": "Draws beyond the limit are rare events in random tests.", "anchors": ["src/pystrata/variation.py:TruncatedNorm.__call__", "src/pystrata/variation.py:TruncatedNorm.limit"]}
{"id": "C79", "title": "Soil-type names override the depth-dependent standard deviation", "statement": "A layer whose soil-type name contains an entry of ln_std_map gets the value of the last such entry, any other layer the value interpolated at its mid-depth.", "quantifier": "every map, name test, table and mid-depth", "why_tests_cant": "All maps and orders of entries.", "anchors": ["src/pystrata/variation.py:DepthDependToroVelVariation._calc_ln_std"]}
{"id": "C80", "title": "SHAKE files with the supported options can be loaded", "statement": "load_shake_inp loads every file whose blocks are of the options with a registered parser (1-7, 9). (Refuted: any block of option 4 to 9 that is not the last one raises - option 4 looks up a wave field by number, the parsers of 5, 6, 7 and 9 do not take the keywords passed. Proved: files with options 1, 2, 3 and one further block give the results of their parsers.) The errors are exact: after blocks of options 1, 2 and 3 that are read, a block of option 5, 6, 7 or 9 that is not the last raises TypeError, one of option 4 or of an unknown option KeyError (or, for option 4, the error of reading its integers); a profile before the curves raises TypeError, a text of less than two lines IndexError. A file whose first block is option 4, before any profile, is a TypeError.", "quantifier": "every file, whatever the block parsers do", "why_tests_cant": "All files and contents.", "anchors": ["src/pystrata/tools.py:load_shake_inp", "src/pystrata/tools.py:_parse_input_loc", "src/pystrata/tools.py:_parse_run_control"]}
{"id": "C81", "title": "Curves are assigned to the soil types in order", "statement": "In an option-1 block of any number of curve pairs in fixed columns, with any number of points per curve, the j-th modulus-reduction and damping curves are stored for the j-th soil type of the list at the end of the block, with the name (without the white space around it), strains and values of the block. No other soil types than those of the list get curves.", "quantifier": "every number of curves, points and distinct soil-type numbers, every layout in lines", "why_tests_cant": "All block shapes.", "anchors": ["src/pystrata/tools.py:_parse_curves"]}
{"id": "C82", "title": "Layers of a SHAKE profile are read from their columns", "statement": "An option-2 block in fixed columns gives the layers in order with soil type, thickness, unit weight and velocity of their columns (blank numbers as NaN) and the curves of their soil type; the water table is at the sum of the thicknesses of the layers above the one given, leaving out those equal (soil type, unit weight, thickness and velocity) to the last layer, hence at the top of the layer given when the last layer has no thickness or no layer above is the same as it. A layer of a soil type without a modulus-reduction or damping curve, after any layers that have them, raises KeyError.", "quantifier": "every number of layers, field texts and layouts; units not english", "why_tests_cant": "All block shapes.", "anchors": ["src/pystrata/tools.py:_parse_soil_profile"]}
{"id": "C83", "title": "SMC files are read completely", "statement": "For a file with 11 text lines, 48 integers in 6 lines, 50 numbers in 10 lines, comments and accelerations in fixed columns, load_smc_file gives exactly the accelerations times the scale, and the inverse of the sampling rate as time step.", "quantifier": "every number of comments and accelerations, grouping in lines and scale", "why_tests_cant": "All file sizes and groupings; the tests load one file.", "anchors": ["src/pystrata/motion.py:TimeSeriesMotion.load_smc_file"]}
{"id": "C66", "title": "Hyperbolic modulus reduction is a valid degradation curve", "statement": "For every Darendeli, Menq, Rollins, two-parameter and Alemu soil type with positive stress and parameters, modulus reduction is in (0,1], strictly decreases with strain, and (one-exponent models) is 1/2 at the reference strain; the reference strain is positive and increases with mean stress. (Refuted: the default two-parameter modulus exceeds 1 at every strain for mean stresses above 438/7 atm (6340 kPa); the modulus of Menq soils increases with strain at mean stresses below 10^-8.6 atm. Proved for all other stresses.) The default minimum damping of Darendeli (frequency >= 1 Hz) and Menq soils is positive and strictly decreases with mean stress.", "quantifier": "every positive strain and parameter set", "why_tests_cant": "Continuum of parameters and strains.", "anchors": ["src/pystrata/site.py:ModifiedHyperbolicSoilType", "src/pystrata/site.py:DarendeliSoilType", "src/pystrata/site.py:MenqSoilType", "src/pystrata/site.py:RollinsEtAlSoilType", "src/pystrata/site.py:TwoParamModifiedHyperbolicSoilType", "src/pystrata/site.py:AlemuEtAlSoilType"]}
{"id": "C84", "title": "Two-parameter and Alemu damping start at the minimum damping and increase", "statement": "The damping of two-parameter soil types is d_min at zero strain, strictly increases with strain and stays below d whenever d_min < d, which holds for the default coefficients at mean stresses from 2^-15 atm on; the damping of Alemu soil types is d_min > 0 at zero strain and strictly increases.", "quantifier": "every strain, stress and parameter set", "why_tests_cant": "Continuum of strains and parameters.", "anchors": ["src/pystrata/site.py:TwoParamModifiedHyperbolicSoilType.__init__", "src/pystrata/site.py:AlemuEtAlSoilType.__init__"]}
{"id": "C85", "title": "Masing damping of the modified hyperbolic models is positive", "statement": "The Masing damping of the hyperbolic model is between 0 and 200/pi percent and strictly increases with strain; after the correction for curvatures from 1/2 to 1 it is positive, so every tabulated damping of Darendeli, Rollins and Menq soil types exceeds the minimum damping.", "quantifier": "every positive strain table; Menq stresses from 10^-3.6 to 10^1.4 atm; up to e^90 cycles", "why_tests_cant": "Continuum of strains, reference strains and curvatures; the correction polynomial has a negative term.", "anchors": ["src/pystrata/site.py:ModifiedHyperbolicSoilType.__init__", "src/pystrata/site.py:DarendeliSoilType", "src/pystrata/site.py:RollinsEtAlSoilType", "src/pystrata/site.py:MenqSoilType"]}
{"id": "C87", "title": "AT2 files are read completely", "statement": "load_at2_file gives for every AT2 file the stripped description, the time step of the header and all values in order times the scale, whatever the number of values per line; files that are too short raise. (Refuted for headers \"NPTS=  4000, DT=  .0050 SEC\" of current PEER files, which raise ValueError; proved for headers whose second word is the time step.)", "quantifier": "every file with any number of lines and values", "why_tests_cant": "Files of every length and layout.", "anchors": ["src/pystrata/motion.py:TimeSeriesMotion.load_at2_file"]}
{"id": "C88", "title": "nrattle control files are read completely", "statement": "read_nrattle_ctl skips comment lines, reads all layers in order, the half-space and the incidence line; profile_from_nrattle_ctl gives the layers in order followed by the half-space. (Refuted: a mistyped layer is silently taken as the half-space and the rest of the profile dropped; a half-space velocity without decimal point makes the reader run off the end of the file; a layer numbered len+1 is overwritten by the half-space. Proved for files without these.) A file of fewer than four lines that are not comments, with a frequency line of nothing but spaces, or that ends with the half-space line raises IndexError; a frequency line of one integer raises TypeError. A file without layers raises IndexError, and layers with fewer than five values raise ValueError. A file without layers, whose half-space line follows the output line, is refused with IndexError.", "quantifier": "every file with any number of layers and comments", "why_tests_cant": "Files of every length; the failures are silent.", "anchors": ["src/pystrata/tools.py:read_nrattle_ctl", "src/pystrata/tools.py:profile_from_nrattle_ctl", "src/pystrata/tools.py:split_line"]}
{"id": "C89", "title": "A curve object always reflects its current arrays", "statement": "After any sequence of assignments to strains and values a NonlinearCurve equals the one constructed from the arrays assigned last; a one-dimensional curve evaluates to the log-linear interpolation of its table within its limits; a two-dimensional one evaluates column by column.", "quantifier": "every sequence of assignments, every table with positive strains, every strain", "why_tests_cant": "Interpolator caching depends on the history of assignments.", "anchors": ["src/pystrata/site.py:NonlinearCurve", "src/pystrata/site.py:NonlinearCurve._update", "src/pystrata/site.py:NonlinearCurve.__call__"]}
{"id": "C90", "title": "Malformed curve tables are reported", "statement": "A curve whose strains and values do not fit together is reported. (Refuted: construction accepts it, calling raises TypeError, and the layer takes this TypeError for a linear soil: modulus reduction 1 and constant damping at every strain; constructing a curve with its documented defaults raises IndexError, and so does asking for the small-strain damping of a curve without points. Proved: a curve whose arrays fit together never raises and the layer uses its value.)", "quantifier": "every pair of arrays of unequal length; for the curve: positive distinct strains, every strain", "why_tests_cant": "The failure is silent: the site behaves as linear.", "anchors": ["src/pystrata/site.py:NonlinearCurve._update", "src/pystrata/site.py:Layer._compute_damping", "src/pystrata/site.py:Layer.strain"]}
{"id": "C91", "title": "The order of the points of a curve does not matter", "statement": "Permuting the points of a table with distinct positive strains does not change the curve. (Refuted outside the tabulated range, where descending order exchanges the two end values; proved inside.)", "quantifier": "every table, every permutation, every strain", "why_tests_cant": "All orders and strains.", "anchors": ["src/pystrata/site.py:NonlinearCurve._update", "src/pystrata/site.py:NonlinearCurve.__call__"]}
{"id": "C92", "title": "The published curves are sound", "statement": "All 37 published models have distinct names; every table has matching lengths, strictly increasing strains and values within the limits of its class, and the curve built from it returns each tabulated value; modulus ratios never increase and damping never decreases with strain; every known name gives a soil type. (The last two are refuted for the listed models: seven EPRI (93) damping curves, one GeoMatrix modulus curve, and seven models that lack one of the tables and raise KeyError; proved for all others. With EPRI (93), PI=10 a layer has damping below its minimum damping.)", "quantifier": "every published model, every strain", "why_tests_cant": "All models at every real strain.", "anchors": ["src/pystrata/site.py:NonlinearCurve.from_published", "src/pystrata/site.py:SoilType.from_published", "src/pystrata/site.py:known_published_curves", "src/pystrata/data/published_curves.toml"]}
{"id": "C93", "title": "Bounds and scaling of the simplified Rayleigh velocity", "statement": "With layer velocities between a and b the simplified Rayleigh velocity lies between a and 4/pi times b; a half-space without thickness has no effect; scaling all velocities scales it; stretching all thicknesses does not change it.", "quantifier": "every profile with positive velocities and total thickness, every factor > 0", "why_tests_cant": "All layerings; the lower bound needs a discrete Wirtinger inequality.", "anchors": ["src/pystrata/site.py:Profile.simplified_rayliegh_vel"]}
{"id": "C94", "title": "A uniform site has its own velocity as simplified Rayleigh velocity", "statement": "For a site of uniform velocity v, however divided into layers, the simplified Rayleigh velocity is v. (Refuted: a single layer gives 4v/pi and dividing it in two changes the result. Proved: every layering gives between v and 4v/pi.)", "quantifier": "every uniform velocity and every layering", "why_tests_cant": "Depends on the number of layers used in the test.", "anchors": ["src/pystrata/site.py:Profile.simplified_rayliegh_vel"]}
{"id": "C95", "title": "A profile read from a data frame has its rows as layers", "statement": "A table with the columns unit_wt, damping, thickness and vel_shear gives one linear layer per row, in order, with the values of the row, and the name column as name; a row without one of these columns raises KeyError.", "quantifier": "every table", "why_tests_cant": "All tables, including additional columns.", "anchors": ["src/pystrata/site.py:Profile.from_dataframe"]}
{"id": "C96", "title": "A data frame written from a profile can be read back", "statement": "Reading the table written by to_dataframe gives a profile with the same layers. (Refuted: to_dataframe writes shear_vel and from_dataframe requires vel_shear, so reading always raises KeyError. Proved: to_dataframe writes one row per layer with its attributes and its depth, and after renaming the column the thickness, unit weight, damping and velocity are recovered.)", "quantifier": "every profile with at least one layer", "why_tests_cant": "Both directions are tested separately at most.", "anchors": ["src/pystrata/site.py:Profile.to_dataframe", "src/pystrata/site.py:Profile.from_dataframe"]}
{"id": "C97", "title": "The frequency-dependent analysis ends within its iterations", "statement": "A frequency-dependent equivalent-linear analysis always ends with one outcome after at most max_iterations iterations; the only exception is RuntimeError, raised by the equivalent-linear estimate or exactly when two consecutive unconverged iterations had to limit a strain; an iteration counts as limited exactly when a nonzero limit is set and some layer above the half-space has a strain above it at some frequency; stopping early means that the maximum error over all layers and frequencies was below the tolerance; then at every frequency the properties used for the waves differ from the final ones by at most the tolerance (one-sided only: increases are not detected, as in C24). The first estimate is an equivalent-linear analysis with the same strain ratio and limit, but always with tolerance 0.01 and 15 iterations. The waves at each frequency are those of a linear-elastic analysis with the properties of that frequency alone. The tolerance and the number of iterations of the calculator do not act on the estimate from which the iterations start.", "quantifier": "every profile, motion, method, setting", "why_tests_cant": "Loop over an array-valued state.", "anchors": ["src/pystrata/propagation.py:FrequencyDependentEqlCalculator", "src/pystrata/propagation.py:FrequencyDependentEqlCalculator._estimate_strains", "src/pystrata/propagation.py:EquivalentLinearCalculator.__call__", "src/pystrata/site.py:IterativeValue.relative_error"]}
{"id": "C98", "title": "Frequency-dependent strains are bounded at every frequency", "statement": "After an iteration no strain at any frequency exceeds the strain limit or the effective strain of the same waves (strain_ratio times the peak), so that at every frequency the modulus is at least, and the damping at most, what an equivalent-linear iteration would use; the ka02 average frequency lies between the lowest and highest frequency. The amplitude of the strain at each frequency is that of a linear-elastic analysis with the properties of that frequency; with the same properties at all frequencies the peak strain is the equivalent-linear one.", "quantifier": "every profile, motion (with a non-zero strain spectrum in every layer), method with non-negative smoothing, monotone curves, every frequency", "why_tests_cant": "Every frequency and every spectrum.", "anchors": ["src/pystrata/propagation.py:FrequencyDependentEqlCalculator._calc_strain", "src/pystrata/propagation.py:EquivalentLinearCalculator.__call__", "src/pystrata/site.py:Layer.strain"]}
{"id": "C99", "title": "With linear soils the frequency-dependent analysis is the linear-elastic one", "statement": "With linear soils and a positive tolerance the frequency-dependent analysis returns after one iteration, for every method, with the waves of a linear-elastic analysis at every frequency.", "quantifier": "every linear profile, motion and method", "why_tests_cant": "All motions and methods.", "anchors": ["src/pystrata/propagation.py:FrequencyDependentEqlCalculator", "src/pystrata/propagation.py:LinearElasticCalculator._calc_waves"]}
{"id": "C100", "title": "Frequency-dependent analyses do not depend on history", "statement": "With reset the outcome depends only on soil type, thickness, initial velocity and minimum damping of the layers, so it is the same after any earlier analysis, even one that raised; no analysis changes these four.", "quantifier": "every profile, every pair of analyses", "why_tests_cant": "Order and history of analyses.", "anchors": ["src/pystrata/propagation.py:FrequencyDependentEqlCalculator._estimate_strains", "src/pystrata/site.py:Layer.reset"]}
{"id": "C101", "title": "Spectral and acceleration outputs are consistent with each other and with the input motion", "statement": "At the location of the input motion the acceleration output returns the recorded motion followed by the zero padding, the Fourier spectrum output returns the magnitudes of the Fourier amplitudes of the motion and the response spectrum output the spectrum of the motion. At the frequencies of the motion, the unsmoothed Fourier spectrum at one location times the transfer function output from it to another location is the Fourier spectrum at the other, transfer functions compose and the transfer function of a location to itself is 1. Response spectra have one non-negative ordinate per oscillator; the response spectrum ratio times the spectrum at the first location is the spectrum at the second. Multiplying the record by a factor multiplies the acceleration output by it and the response spectra by its magnitude when the soil is linear.  With absolute=False the recorded transfer function is the complex one at the frequencies of the motion, and between them its absolute value is at most the one recorded with absolute=True.", "quantifier": "all motions made from a record, all layer properties (also frequency dependent), all pairs of locations at which the wave field does not vanish, all oscillator frequencies and dampings > 0, all factors", "why_tests_cant": "Tests compare a few outputs with stored numbers for particular profiles; agreement between different output classes for all locations and motions is not a finite check.", "anchors": ["src/pystrata/output.py:AccelerationTSOutput", "src/pystrata/output.py:FourierAmplitudeSpectrumOutput.__call__", "src/pystrata/output.py:ResponseSpectrumOutput.__call__", "src/pystrata/output.py:AccelTransferFunctionOutput.__call__", "src/pystrata/output.py:ResponseSpectrumRatioOutput.__call__", "src/pystrata/output.py:576-591"]}
{"id": "C102", "title": "Strain, stress and peak acceleration outputs", "statement": "Strain and stress outputs exist for within motion only. Strain in percent is a hundred times decimal strain at every time; undamped stress is the shear modulus of the layer times the strain at every time; normalized stress is the stress over the effective vertical stress; strain and stress recorded at the free surface are zero at every time. The acceleration recorded at the base of a layer is at every time that recorded at the top of the next layer. The peak acceleration profile holds for every depth the largest absolute value of the acceleration output there.", "quantifier": "all motions, all layer properties with non-zero velocity and modulus, input locations at which the wave field does not vanish, all output locations, all times", "why_tests_cant": "These relate time series of several outputs at all times for every profile and record; tests only look at particular recorded values.", "anchors": ["src/pystrata/output.py:StrainTSOutput", "src/pystrata/output.py:StressTSOutput", "src/pystrata/output.py:MaxAccelProfile", "src/pystrata/output.py:TimeSeriesOutput.__call__"]}
{"id": "C103", "title": "The strain of an equivalent-linear analysis is the effective strain at mid-height", "statement": "When an equivalent-linear call returns after at least one iteration, the maximum strain of every layer above the half-space is the peak of the strain in the middle of the layer computed with the waves of the last iteration, and the strain that determines the properties of the layer is the strain ratio times this peak, no more than the strain limit if there is a non-zero one. An analysis that resets the profile starts from the strain peak velocity over shear-wave velocity in every layer, whatever strain was there before.", "quantifier": "all profiles, motions, input locations, settings and histories", "why_tests_cant": "The existing tests compare results of a few analyses; the relation between maximum strain, effective strain and waves holds for every analysis.", "anchors": ["src/pystrata/propagation.py:EquivalentLinearCalculator.__call__", "src/pystrata/propagation.py:EquivalentLinearCalculator._calc_strain", "src/pystrata/propagation.py:EquivalentLinearCalculator._calc_strain_max", "src/pystrata/propagation.py:EquivalentLinearCalculator._estimate_strains"]}
{"id": "C104", "title": "Attenuation due to scattering", "statement": "calc_atten_scatter returns a number that is never negative, from the slope of the least-squares line through the logarithm of the transfer function. For a uniform profile, in which nothing is scattered, it returns 0. The default frequencies are 256 evenly spaced ones from 50 to 200 Hz; an empty profile raises IndexError.", "quantifier": "all profiles with at least one layer and positive properties, all frequency sets with two different positive frequencies; uniform profiles with damping up to 0.49", "why_tests_cant": "Whether a scattering attenuation of an unscattering profile is exactly zero depends on the complex modulus used and cannot be seen with the tolerance of a test.", "anchors": ["src/pystrata/tools.py:calc_atten_scatter"]}
{"id": "C105", "title": "Realizations leave the seed profile and each other alone", "statement": "Generating any number of varied profiles changes no layer and no profile that existed before, in particular not the seed. Each yielded profile is a new object with its own layers and the water table of the seed, no two of them share a layer, and one stays as it was yielded while the later ones are generated. The k-th yielded profile has the layer thicknesses and velocities drawn in the k-th round, or those of the seed where they are not varied. As many are yielded as asked for unless a variation raises; with fixed percentiles a count that is no multiple of their number raises a ValueError before the first.", "quantifier": "all seed profiles, all combinations of the thickness, velocity and soil-type variations, all draws, all counts", "why_tests_cant": "A test compares the seed after a few draws; shared layer objects between realizations show only when a later analysis writes to one of them, for particular combinations of the variations.", "anchors": ["src/pystrata/variation.py:iter_varied_profiles"]}
{"id": "C106", "title": "Motions of SHAKE files are read completely", "statement": "The motion block of a SHAKE file gives the name, time step and Fourier length in its columns and the accelerations of the record, in order, as one series: multiplied by the factor given, or else scaled to the peak given, or else as they are. The number of values per line and their width are those of the Fortran format. The format is found exactly if somewhere in its text there are digits, a word character, digits, a dot and a digit, and the numbers found are those of such a place; without one the parser raises AttributeError. A file that cannot be read raises its own error, and a record without numbers that is to be scaled to a peak raises ValueError; a record of zeros or with a value that is not finite gets no finite factor.", "quantifier": "all blocks and records with fields in their columns, all formats like (8F10.6), all factors and peaks", "why_tests_cant": "The reader has no test; a record of one line works, while several lines give an array of the wrong shape that fails only later or not at all.", "anchors": ["src/pystrata/tools.py:_parse_motion"]}
{"id": "C107", "title": "Fitting a profile to an amplification keeps its bounds and does not worsen the match", "statement": "QuarterWaveLenCalculator.fit keeps the layers and their densities, leaves every velocity from 100 to 4000 m/s (the half-space velocity unchanged unless adjust_source_vel), every thickness unchanged or within a factor of two with adjust_thickness, stores the amplification of the fitted profile, and the relative mean square mismatch to the target (plus the relative change of the slownesses) is not larger than before the fit.  What is compared with the target is the site term or the crustal amplification, as asked, and an adjusted attenuation is from 0.0001 to 0.2 s at the minimum. An exception raised by an evaluation of the error leaves fit, the first of them if there are several; a profile without layers raises IndexError. The points searched are exactly those within these ranges.", "quantifier": "for every profile, target, option and every optimiser that stays within its bounds and does not return a worse point", "why_tests_cant": "The result of a numerical optimisation differs between profiles and targets; a test fits one example. The failing cases (zero-thickness half-space with adjust_thickness, attenuation of the last evaluation) depend on what the optimiser does.", "anchors": ["src/pystrata/propagation.py:QuarterWaveLenCalculator.fit"]}
{"id": "C108", "title": "Generic Toro models have the documented parameters", "statement": "ToroVelocityVariation.generic_model accepts exactly the documented site classes and gives the tabulated parameters, each replaced by a keyword argument of the same name; usgs_site_class gives a class for every velocity and the correlations of every generic model are in [0,1]. The depth-dependent model has a standard deviation of 0.25 at the surface falling to 0.15 at 15 m, or the one given.", "quantifier": "for all site classes, velocities, keyword arguments and profiles", "why_tests_cant": "The tests construct one or two classes without keyword arguments; that a given ln_std is silently replaced, or that depths alone give a model that fails when used, shows only for other combinations of keywords.", "anchors": ["src/pystrata/variation.py:ToroVelocityVariation.generic_model", "src/pystrata/variation.py:ToroVelocityVariation.usgs_site_class", "src/pystrata/variation.py:DepthDependToroVelVariation.generic_model"]}
{"id": "C109", "title": "The evolution of the amplification with depth", "statement": "plot_amplification_evolv shows, at each depth and frequency of the motion, the magnitude of the transfer function from the input location (or the ratio of response spectra), 1 at the location of the input, and relative to the deepest row if normalized; the depth axis contains all the depths. Without depths the plot raises IndexError.", "quantifier": "for all calculators whose wave field does not vanish at the input location, depths, positive frequencies and dampings, metrics and both settings of normalized", "why_tests_cant": "A plotting function is only smoke-tested, if at all; that the values are the transfer function and the axis contains the depths is not asserted.", "anchors": ["src/pystrata/output.py:plot_amplification_evolv"]}
{"id": "C110", "title": "The results of a layer agree with each other and with its curves", "statement": "After a strain is assigned, the modulus reduction of a layer is the value of its curve, the strain-compatible velocity is the initial velocity times its root (never above it), and the effective shear stress is modulus times strain; the adjusted damping curve interpolated at any strain is the damping of the layer and starts at its minimum damping; the reduction output is the squared ratio of the two velocity outputs; the cyclic stress ratio is 0.65 G gamma_max / sigma'_v and an error if no maximum strain was computed.", "quantifier": "for all layers, curves within their limits, strains and profiles", "why_tests_cant": "Tests compare single numbers of one profile; the agreement of several properties at every strain and the behaviour after analyses that leave the maximum strain unset are not tested.", "anchors": ["src/pystrata/site.py:Layer.adjusted_damping_curve", "src/pystrata/site.py:Layer.shear_mod_reduc", "src/pystrata/site.py:Layer.stress_shear_max", "src/pystrata/output.py:CyclicStressRatioProfile", "src/pystrata/output.py:CompatVelProfile"]}
{"id": "C111", "title": "Data frames of outputs hold the recorded results", "statement": "After any sequence of successful calls and resets, to_dataframe of an output with fixed references has the references as index and one column per call since the last reset, with its name and exactly the recorded array. For profile outputs with two or more results, column k at each depth is the value of result k recorded with the next reference (also when it is zero, independent of padding). (Refuted for a single profile result, which raises IndexError, and after a call that raised: its name stays, giving a column of NaN or a ValueError after the next result. Time series have no data frame.) Results that do not fit their references or names are refused with ValueError, and with nothing else.", "quantifier": "every history of calls and resets, every arrays, references and depths", "why_tests_cant": "Histories and array lengths are unbounded; no test in the repository calls to_dataframe of an output after a failed call or with one profile result.", "anchors": ["src/pystrata/output.py:Output.to_dataframe", "src/pystrata/output.py:ProfileBasedOutput.to_dataframe", "src/pystrata/output.py:TimeSeriesOutput.to_dataframe"]}
{"id": "C112", "title": "Amplification of undamped sites is bounded by impedance ratios", "statement": "The motion at depth z of a layer on a half-space relative to the outcropping half-space is cos(kz)/(cos(kH) + i a sin(kH)) with the complex impedance ratio a (any damping). For any number of undamped layers the surface amplification relative to the outcrop of any layer lies between the products of the impedance ratios that reduce and that increase the motion; if impedance does not decrease with depth it is at least 1 and at most the impedance of that layer divided by that of the top layer. For one layer the upper bound is attained at (2n+1) v/(4H) and amplification is 1 at n v/(2H).", "quantifier": "every number of layers, thicknesses, weights, velocities and every frequency (not close to 0)", "why_tests_cant": "Unbounded layer counts and all frequencies; a test can compare a few values only.", "anchors": ["src/pystrata/propagation.py:_calc_waves_python", "src/pystrata/propagation.py:LinearElasticCalculator.calc_accel_tf", "src/pystrata/site.py:Layer.comp_shear_vel"]}
{"id": "C113", "title": "The damping of layers in realizations of soil types", "statement": "For every soil-type variation that works on each tabulated value (Darendeli, SPID) and every draw, a layer of the realization keeps thickness, velocity, unit weight, minimum damping and small-strain modulus; its modulus reduction stays within limits_mod_reduc and its damping within limits_damping. (The damping limit is refuted: since the damping is shifted to the minimum damping of the given layer, it is only within the limits plus that shift; for the same reason the damping up to the first tabulated strain is the layer's minimum damping in every realization, and SPID scales only the increase above it.) Layers of linear soil are unchanged. The tables of a realization have the strains of the given curves and the varied values cut off at the limits; a damping given as a number is varied and cut off in the same way.", "quantifier": "all variations, limits, draws, curves, layers and strains", "why_tests_cant": "The random draws and strains form a continuum; the shift of the damping by the varied first value is only visible in the combination of variation and layer.", "anchors": ["src/pystrata/variation.py:845-933", "src/pystrata/variation.py:964-1067", "src/pystrata/site.py:1915-1927", "src/pystrata/site.py:331-342"]}
{"id": "C114", "title": "A site gives back at most the wave energy it receives", "statement": "At the top of a half-space without damping, at every positive frequency: the power of the incoming wave equals the power of the reflected wave plus the power dissipated in the layers above (the integral of the imaginary part of the modulus times the squared strain). So the reflected wave is never larger than the incoming one, the motion within the site is never larger than the motion of the outcrop, and both are strictly smaller if a layer above has damping. With a damped half-space the reflected wave is at most t + sqrt(1 + t^2) times the incoming one, t the ratio of imaginary and real part of its velocity.", "quantifier": "all sites with positive unit weights, moduli and non-negative thicknesses, all dampings of the layers, all frequencies not treated as zero", "why_tests_cant": "The bound must hold at every frequency, close to every resonance and for any number of layers; it is an integral identity no test evaluates.", "anchors": ["src/pystrata/propagation.py:116-172", "src/pystrata/propagation.py:621-676", "src/pystrata/site.py:1836-1865"]}
{"id": "C116", "title": "Reference values and scaling laws of the empirical soil models", "statement": "The reference strain, curvature, Masing scaling and minimum damping of the Darendeli, Menq and Rollins models, and the strains, exponents and dampings of the two-parameter and Alemu models, take the published values at one atmosphere (Rollins: 1 kN/m\u00b2) and follow power laws with the published exponents in mean stress, overconsolidation ratio, uniformity coefficient and grain size; the minimum damping of Darendeli grows with the logarithm of frequency by 29.19 % per factor e. The Masing correction is 0.9998 for curvature 1 and the strain-dependent damping at the reference strain is the scaling times the corrected Masing damping (6 - 8 log 2) 100/pi times 2^-0.1. The Kishida model has the reference strain exp(-1.41) % at the mean of its organic-content predictor x, a zero-strain modulus that grows with the vertical stress to the power 1 - 0.37 x and with the laboratory consolidation ratio to the power 0.8 - 0.4 x, a modulus reduction that is a hyperbola to the power 0.729 times two stated corrections, a damping that is a power of (-log of the modulus reduction + 0.103) times powers of the stress, and a unit weight exp(-0.112 + 0.038 log stress + 0.36 x) g; its curves start at 1 and need at least one strain. At k atmospheres the damping of the two-parameter model is midway between its minimum and 13.125 percent at a strain of 0.11 k^0.23 percent.", "quantifier": "all values of the arguments", "why_tests_cant": "Tests compare tables for a few parameter sets; a wrong exponent or coefficient shows only away from them.", "anchors": ["src/pystrata/site.py:384-434", "src/pystrata/site.py:471-524", "src/pystrata/site.py:576-599", "src/pystrata/site.py:649-672", "src/pystrata/site.py:1382-1404", "src/pystrata/site.py:1472-1502", "src/pystrata/site.py:1540-1672"]}
{"id": "C117", "title": "The outputs of a collection stay in step", "statement": "Calling an OutputCollection after an analysis calls every output with the same name. After any sequence of calls and resets every output of the collection has one result per call since the last reset, all under the same names (the given ones, else r1, r2, ... by the number of the call), and holds what it would hold if called alone; a reset puts the collection back to its initial state. This is so as long as no output raises. It fails otherwise: the first exception ends the call, outputs before the failing one have recorded the analysis and those after it have not, and from then on the results of one analysis have different names and positions in the outputs, until the collection is reset.", "quantifier": "all collections of outputs of the modelled kinds, all sequences of calls and resets, with and without exceptions", "why_tests_cant": "Tests call collections once per motion without a failing output; the mismatch needs an exception followed by another call.", "anchors": ["src/pystrata/output.py:115-139", "src/pystrata/output.py:182-222"]}
{"id": "C118", "title": "Similar sites respond alike", "statement": "If all thicknesses are multiplied by t, velocities by a and unit weights by r, and the input motion has its frequencies multiplied by a/t and its accelerations by a\u00b2/t (its velocities then by a), the analysis takes the same course: at corresponding frequencies and depths the wave amplitudes and the acceleration transfer functions are the same, strain transfer functions are multiplied by t/a\u00b2 and stress ones by r t; the equivalent-linear analysis performs the same number of iterations with the same strains, dampings and errors, ends in the same way (return or exception), and has all moduli multiplied by r a\u00b2. In particular results do not depend on the units of length and weight.", "quantifier": "all profiles of layers with positive unit weight and velocity and curves bounded below by a positive limit, all positive factors, all frequencies that are not treated as zero in only one of the analyses, all calculator settings, all input locations", "why_tests_cant": "Tests use one unit system and fixed sites; a dimensionally wrong factor (depth instead of thickness, velocity instead of modulus) gives plausible numbers.", "anchors": ["src/pystrata/propagation.py:116-205", "src/pystrata/propagation.py:592-720", "src/pystrata/propagation.py:755-877", "src/pystrata/motion.py:163-184", "src/pystrata/site.py:1718-1900"]}
{"id": "C119", "title": "A weak motion gives the linear-elastic analysis", "statement": "Curves are constant up to their first tabulated strain. If the strains of the initial estimate (from the peak velocity) and of the first iteration do not exceed the first tabulated strains, the equivalent-linear analysis returns after one iteration with the waves and layer properties of a linear-elastic analysis in which the modulus of each layer is multiplied by the first value of its modulus reduction curve and the damping is the minimum damping. For every site and motion there is a factor such that this holds for the motion multiplied by any smaller factor. If all curves start at 1 this is the linear-elastic analysis of the profile itself. It is not for the modified hyperbolic soil types (Darendeli, Menq, Rollins), whose tables start below 1: with however weak a motion their layers have less than the small-strain modulus after the analysis.", "quantifier": "all profiles whose half-space keeps its modulus at small strains, all motions and factors, all input locations and settings with positive tolerance and at least one iteration", "why_tests_cant": "Tests compare the two calculators for one linear site; the limit of weak motions for nonlinear soils and all factors is not sampled.", "anchors": ["src/pystrata/propagation.py:755-828", "src/pystrata/site.py:120-229", "src/pystrata/site.py:1915-1946", "src/pystrata/site.py:384-434"]}
{"id": "C120", "title": "Which layers are excluded from the adjustment of damping", "statement": "In adjust_damping_values a function given as exclude excludes the layers for which it is true; a string without special characters those whose soil name begins with it; a list those in whose soil name one of its strings occurs. Layers with a listed name always keep their damping. Documented is instead that a list excludes the soil names contained in it: this holds if no listed name is part of the name of another soil type in the profile, and fails otherwise (a list with sand also excludes silty sand). An empty string, alone or in a list, excludes everything and raises RuntimeError. Values of other types, such as a tuple of names, are ignored.", "quantifier": "all profiles with nonzero velocities, names and lists; patterns with special characters as a parameter", "why_tests_cant": "Tests exclude by one name that is not part of another; partial matches change damping silently.", "anchors": ["src/pystrata/tools.py:366-468"]}
{"id": "C121", "title": "A linear analysis is a linear, time-invariant filter", "statement": "The time series of a record under a transfer function is the circular convolution of the record with the series of a unit impulse under that transfer function. So the response to a sum of records is the sum of the responses, a delayed record gives the delayed response, and the peak is at most the peak of the record times the sum of the sizes of the impulse response. If the transfer function is at most M in size at every frequency, the energy of the series (sum of squares) is at most M squared times that of the record, and at least that if it is at least M (and real at the zero and last frequency). For sites: the surface motion of an undamped site whose impedance does not decrease with depth has at most the energy of the outcrop motion times the squared ratio of the impedances, and the motion within the top of an undamped half-space at most the energy of the outcrop motion.", "quantifier": "all records, time steps, even Fourier lengths and transfer functions; all such sites", "why_tests_cant": "Tests compare a few transfer functions by value; bounds over all transfer functions and records, and superposition, cannot be sampled.", "anchors": ["src/pystrata/motion.py:163-168", "src/pystrata/motion.py:229-243", "src/pystrata/motion.py:182-184", "src/pystrata/propagation.py:641-654"]}
{"id": "C122", "title": "Motions within a damped site", "statement": "Below or in a damped layer of positive thickness the motion within the site is not zero at any positive frequency, so a within motion there can be the input of an analysis; in particular anywhere in a site all of whose layers are damped. From a depth z in the top layer to the surface the amplification is 1 over the root of cos squared plus sinh squared of the real and imaginary parts of the wave number times z, so it is at most 1/sinh(D w z/v) for damping D and velocity v, and less than 2/(pi D) at the first resonance of a layer on its base. In an undamped layer the within motion vanishes a quarter wavelength down, and the transfer function from there divides by zero. Nor does the strain vanish below or in a damped layer of positive thickness.", "quantifier": "all viscoelastic sites, frequencies and depths (where the wave field does not vanish); all dampings up to the truncation", "why_tests_cant": "A zero of the within motion lies at isolated frequencies that sampled tests miss; that damping excludes it everywhere needs proof.", "anchors": ["src/pystrata/propagation.py:161-172", "src/pystrata/propagation.py:620-654"]}
{"id": "C123", "title": "A layer without thickness has no effect", "statement": "Inserting a layer of thickness zero, with any non-zero velocity and modulus, anywhere above the half-space leaves the amplitudes of all other layers and all acceleration and strain transfer functions between them unchanged, at every frequency including zero; only the indices of the layers below shift by one. The motion in the inserted layer is the motion of the top of the layer below.", "quantifier": "all sites, inserted layers, positions, frequencies and pairs of locations", "why_tests_cant": "Tests use layers of positive thickness; equality of two sites at all frequencies cannot be sampled.", "anchors": ["src/pystrata/propagation.py:116-158", "src/pystrata/propagation.py:620-719"]}
{"id": "C124", "title": "Rigid rock", "statement": "Transfer functions from the motion within the top of the rock to the deposit do not depend on the rock at all. The outcrop motion of the rock differs from the motion within its top by the traction of the deposit over the impedance of the rock. As the rock gets stiffer, the transfer functions from its outcrop motion tend to those from the motion within its top; for deposits of damped layers without further condition.", "quantifier": "all deposits, rocks, locations in the deposit and frequencies", "why_tests_cant": "A limit, and independence of all rock properties, cannot be sampled.", "anchors": ["src/pystrata/propagation.py:116-172", "src/pystrata/propagation.py:641-654"]}
{"id": "C125", "title": "Stiff sites move as rigid bodies", "statement": "If the velocities of all layers are multiplied by a factor that grows without bound, at a fixed frequency, the amplitudes of all waves tend to 1 and the transfer functions between within and outcrop motions tend to 1. The shear stress transfer function tends to the total vertical stress at the depth: the stress is the weight above times the acceleration in units of gravity. Since a factor of the velocities is a factor of the frequency, the same should hold for low frequencies; but the strains at frequencies of at most 1e-8 rad/s are set to zero, though just above they are nearly the static ones: a motion with a non-zero mean strains the model at no frequency.", "quantifier": "all viscoelastic sites, locations, depths and frequencies above 1e-8 rad/s", "why_tests_cant": "A limit cannot be sampled, and tests of the strain do not look at the zero frequency.", "anchors": ["src/pystrata/propagation.py:116-204", "src/pystrata/propagation.py:641-719"]}
{"id": "C126", "title": "The size of the amplitudes", "statement": "The amplitudes of the up- and down-going waves of every layer are at most the product, over the interfaces, of the root of one plus the squared ratio of the complex impedances times the exponential of the imaginary part of the wave number times the thickness. For undamped layers the bound does not depend on the frequency. So whether the recursion can overflow can be read off the profile.", "quantifier": "all sites of non-zero velocities and moduli and non-negative thicknesses, all frequencies", "why_tests_cant": "An upper bound over all frequencies and sites cannot be sampled.", "anchors": ["src/pystrata/propagation.py:116-158"]}
{"id": "C127", "title": "The quarter-wavelength calculator with recorded motions", "statement": "The quarter-wavelength depths are found for recorded motions as for others. This is false: a recorded motion has the frequency zero, where the depth is infinite and the mean slowness over it nan; nan is close to nothing, so the iteration never ends and every analysis of every profile with such a motion raises RuntimeError. At positive frequencies no infinity or nan arises and the depths are those of exact arithmetic. The numbers of the calculation follow IEEE 754: they are extended real numbers wherever these have a value, nan elsewhere, and nan is close to nothing.", "quantifier": "all profiles with positive slownesses, all frequency lists and all records", "why_tests_cant": "The tests and the example use motions given by positive frequencies only; that no profile escapes the error needs proof.", "anchors": ["src/pystrata/propagation.py:76-113", "src/pystrata/propagation.py:408-431", "src/pystrata/motion.py:229-243"]}
{"id": "C128", "title": "The shapes of the Wang-Stokoe curves", "statement": "For every soil group and every set of supplied parameters in ordinary ranges, the modulus reduction is 1 at zero strain, falls strictly with strain towards 0 and is larger at larger mean stress; the damping is the minimum damping at zero strain, rises strictly towards a largest damping between 12 and 22 %, and is smaller at larger mean stress (for clays that are not too plastic); the small-strain modulus is positive, grows with the mean stress and falls with the void ratio; the minimum damping is positive and falls with the mean stress. Outside the ranges, which are neither documented nor checked, the formulas take powers of negative numbers (complex numbers in Python): the minimum damping of a sand of 30 % water content, the damping of a dry clay; and the modulus of a silt of 80 % water content is negative.", "quantifier": "all soil groups, all subsets of parameters with all values in the ranges, all strains >= 0 and mean stresses > 0 (up to 6000 kPa for the modulus reduction)", "why_tests_cant": "Twelve families of formulas over continuous parameters; tests compare single curves to tabulated values.", "anchors": ["src/pystrata/site.py:WangSoilType.calc_shear_mod", "src/pystrata/site.py:WangSoilType.calc_mod_reduc", "src/pystrata/site.py:WangSoilType.calc_damping_min", "src/pystrata/site.py:WangSoilType.calc_damping"]}
{"id": "C129", "title": "The response depends continuously on the site", "statement": "For an outcropping or incoming input motion, the linear elastic transfer function to any location is, at every frequency (zero included), a continuous function of the shear moduli, dampings and thicknesses of all layers (moduli positive, thicknesses not negative) and of the depth of the location: small errors in the site give small errors in the response, and there is no site at which the response jumps.", "quantifier": "all sites, continuous families of sites, frequencies and locations", "why_tests_cant": "Continuity is a statement about limits over infinitely many sites; a test sees finitely many.", "anchors": ["src/pystrata/propagation.py:592-654", "src/pystrata/site.py:1807-1860"]}
{"id": "C130", "title": "Strain-compatible solutions exist, and limits of the equivalent-linear iteration are such", "statement": "A site is strain compatible when the strain of every layer above the half-space is the effective (ratio times peak, limited) strain that the waves of these very layers give, and its modulus and damping are those of the curves at that strain. (1) For an outcropping or incoming input motion every site whose curves are tables of increasing positive strains, with modulus reduction limited below by a positive number, has a strain-compatible state, whatever the number of layers and however strong the motion. (2) If the strains of the equivalent-linear iteration converge, the limit is strain compatible. (3) If they converge and the limiting dampings are positive, then every positive tolerance is met from some iteration on, and a call without a strain limit ends by meeting its tolerance if enough iterations are allowed. These hold for all motions whose peaks depend continuously on the transfer function, among them all recorded motions of even Fourier length. The iteration itself need not converge, and nothing is raised then: for 50 m of clay (one pair of curves, modulus falling and damping rising with strain) on rock under a cosine record of 1 Hz, the call uses up every allowed number of iterations for every tolerance up to 100 %, its strains alternating for ever between two values, although a strain-compatible state exists.", "quantifier": "all sites, curves, motions, strain ratios and tolerances", "why_tests_cant": "Existence of a fixed point and limits of infinite iterations cannot be observed in finitely many runs.", "anchors": ["src/pystrata/propagation.py:755-890", "src/pystrata/site.py:146-226", "src/pystrata/motion.py:160-215"]}
{"id": "C131", "title": "Random variates have the documented median and spread", "statement": "Taking the generators of numpy and scipy to be exact: the draws of TruncatedNorm have mean 0 and unit standard deviation, and a varied velocity has the initial velocity as its median and the specified logarithmic standard deviation. The first holds of TruncatedNorm.__call__ for every limit. TruncatedNorm.correlated returns a pair with probability 1, with the distribution of a drawn pair given that both values are within the limits; the mean is 0 but the variance is below 1, although the documentation of correlated_at_percentile calls these samples of unit standard deviation. The logarithm of a varied velocity has the logarithm of the initial velocity as its mean and the initial velocity is a median, but its standard deviation is always greater than the specified one: the scale that restores the spread of a truncated distribution is applied to values that are clipped. With the covariance matrix positive semidefinite the variance is the specified one times P + (1 - P) L^2 / v, where L is the limit, P the probability of the standard normal distribution within the limits and v the variance of the truncated distribution, 1 - 2 L phi(L) / P. The Toro model's matrix is not positive semidefinite (its correlation with the half-space is 1), and then numpy's draws have the absolute value of the matrix as their covariance and the variance of some layer is greater than the matrix says even before clipping.", "quantifier": "every limit > 0, correlation in [-1, 1], number of layers, positive velocities, standard deviations and correlations; every stream of independent pairs", "why_tests_cant": "The spread of a sample of random realizations is itself random; a bias of a few percent is hidden by the tolerance of any sampling test.", "anchors": ["src/pystrata/variation.py:TruncatedNorm.__call__", "src/pystrata/variation.py:TruncatedNorm.limit", "src/pystrata/variation.py:TruncatedNorm.correlated", "src/pystrata/variation.py:VelocityVariation.__call__", "src/pystrata/variation.py:VelocityVariation._calc_covar_matrix"]}
{"id": "C132", "title": "The layering of the Toro thickness model is a Poisson process with the documented rate", "statement": "With independent exponential increments of mean 1, the bases of the layers that iter_thickness generates above the total depth D form a nonhomogeneous Poisson process with the rate c3 (z + c1)^c2: for every division of [0, D) into adjacent intervals the numbers of bases in them are independent, each with the Poisson distribution whose mean is the integral of the rate over the interval. The number of layers above the half-space is 1 plus a Poisson variable with the mean Lambda(D) = the integral of the rate over [0, D]; n draws are enough with the probability that this variable is below n; the loop ends with probability 1.", "quantifier": "every c1 > 0, c2 > -1, c3 > 0, total depth > 0, finite division of the depth, numbers of bases and number of draws greater than their sum", "why_tests_cant": "A distribution over infinitely many layerings; samples of any size leave the joint distribution of the counts open.", "anchors": ["src/pystrata/variation.py:ToroThicknessVariation.iter_thickness"]}
{"id": "C133", "title": "Varied soil curves have the given curves as medians, and the given spread and correlation", "statement": "Taking the generator of numpy to be exact, in the random mode: at every strain the given value (clipped to the limits; for the modulus reduction of SpidVariation divided by 1 + eps) is a median of the varied modulus reduction and damping. Before clipping the given values are the means for DarendeliVariation, and the logarithms of the given damping and odds the means of the logarithms for SpidVariation. Standard deviation and correlation are the given ones: this does not hold. The standard deviations, with and without clipping, are always below those of Darendeli's equations 7.29 and 7.30, and for SPID below the given ones. The covariance of the varied modulus reduction and damping at any two strains has the sign of the given correlation in both models, with the limits; but the correlation coefficient of the two random variables is always closer to 0 than the given one, unless that is 0, 1 or -1.", "quantifier": "every correlation in [-1, 1], limit > 0, curves (modulus reduction in [0, 1], damping >= 0), clipping limits, strains, and for SPID every eps > 0 and standard deviation > 0", "why_tests_cant": "Medians, variances and covariances of continuous distributions; a sample gives estimates only, and the bias of the correlation is small.", "anchors": ["src/pystrata/variation.py:SoilTypeVariation.__call__", "src/pystrata/variation.py:DarendeliVariation._get_varied", "src/pystrata/variation.py:SpidVariation._get_varied", "src/pystrata/variation.py:TruncatedNorm.correlated"]}
{"id": "C134", "title": "Every logic tree can be written as a JSON file", "statement": "For every logic tree there is a JSON file from which LogicTree.from_json makes that tree. (Refuted for values and conditions that are tuples of strings, which AlternativeValueType allows: arrays are loaded as lists, so that no file has a tuple among its values; the iteration over a tree in which some valid choice has a list raises TypeError, because the key of a branch is hashed; a condition on an array means membership. Proved for trees of strings and numbers.)", "quantifier": "every tree, every file of arrays, strings and numbers", "why_tests_cant": "All trees and files; the test only loads one file.", "anchors": ["src/pystrata/logic_tree.py:LogicTree.from_json", "src/pystrata/logic_tree.py:LogicTree.from_list", "src/pystrata/logic_tree.py:LogicTree.__iter__"]}
{"id": "C135", "title": "Zeros in the data are ignored by the statistics of outputs", "statement": "As the comment in ProfileBasedOutput.calc_stats says (\"Ignore zeros in the data\"), zeros do not change median and ln_std. (Refuted: a zero in a row makes the median zero and ln_std NaN whatever the other values; maximum-strain profiles record zero at the surface, so their statistics at depth zero, the first of the default depths, are always zero and NaN. What holds: negative values are left out as if missing. The default depths start at zero and end at 1.05 times the deepest reference.)", "quantifier": "every row of values, every history of maximum-strain results", "why_tests_cant": "One zero in an arbitrary table changes the result; tests only plot statistics.", "anchors": ["src/pystrata/output.py:ProfileBasedOutput.calc_stats", "src/pystrata/output.py:Output.calc_stats", "src/pystrata/output.py:MaxStrainProfile"]}
{"id": "C136", "title": "Plots of outputs show every result", "statement": "Every output with results can be plotted. The individual plot has one line for each call since the last reset, through the references and values it recorded (padding left out) and labelled with its name, with a legend if there are several and depth downwards for profiles. The plot with statistics adds the medians to the lines of three or more results and is refused with RuntimeError for fewer; an unknown style is refused with AssertionError. (Refuted: CyclicStressRatioProfile has no xlabel, so its plot always raises AttributeError; with a single result the check does not apply and the statistics raise instead. Proved for all other classes.)", "quantifier": "every class of output, every history of successful calls and resets whose results have as many values as references", "why_tests_cant": "Plots are only drawn in example notebooks, and not of every class; what the lines hold is not compared.", "anchors": ["src/pystrata/output.py:Output.plot", "src/pystrata/output.py:ProfileBasedOutput.plot", "src/pystrata/output.py:CyclicStressRatioProfile"]}
{"id": "C137", "title": "Limits and bounds of response spectra", "statement": "The ordinates of a response spectrum tend to the peak acceleration for stiff oscillators. For soft oscillators they tend to the absolute value of the mean of the (cut or zero padded) record times the real part of the transfer function at the zero frequency, not to zero. They depend continuously on the frequency and damping of the oscillator. The transfer function of the oscillator is nowhere greater than 1 / (2 damping sqrt(1 - damping^2)), or 1 from a damping of 1/sqrt(2) on, and attains this value; so every ordinate is at most this number times the greatest size of the given transfer function times the root of the sum of squares of the record. More damping never gives the response of an oscillator more energy.", "quantifier": "all records, time steps, even Fourier lengths, transfer functions with one value per frequency, positive oscillator frequencies and dampings", "why_tests_cant": "Limits and bounds range over all oscillators and records; tests compare a few ordinates.", "anchors": ["src/pystrata/motion.py:196-267", "src/pystrata/motion.py:163-184"]}
{"id": "C138", "title": "The recorded series are samples of one motion of the site in time", "statement": "For every linear or equivalent-linear analysis of a recorded motion there are an acceleration, a displacement, a strain and a stress field in continuous depth and time, such that the within acceleration, strain and stress series recorded at any depth are their values at the sampling times; the acceleration, apart from a mean common to the whole site, is the second derivative of the displacement in time, the strain its derivative with depth, density times acceleration is the derivative of the stress with depth in every layer, the surface is free of stress, and displacement and stress are continuous at the interfaces. Without damping the stress is modulus times strain, so that the displacement satisfies the wave equation.", "quantifier": "all records, time steps, even Fourier lengths, input locations where the site moves, all sites of viscoelastic layers (also with properties that depend on frequency), depths and times; frequencies above zero larger than 1e-8 rad/s", "why_tests_cant": "Tests see values at some times and depths; that they belong to one motion that obeys the equations of motion at all times and depths needs a proof.", "anchors": ["src/pystrata/output.py:372-462", "src/pystrata/propagation.py:116-204", "src/pystrata/propagation.py:641-719", "src/pystrata/motion.py:163-168"]}
{"id": "C139", "title": "Peak velocity is the peak of the integral of the acceleration", "statement": "calc_pgv(tf) is 100 g times the greatest absolute value, at the sampling times, of a velocity that has the period of the Fourier length, has zero mean, and whose derivative is the acceleration apart from its mean; the acceleration takes the values of the series calculated with the transfer function at the sampling times. With ones as transfer function it is the peak velocity of the motion; an array of another length is refused.", "quantifier": "all records, time steps, even Fourier lengths and transfer functions; frequencies above zero larger than 1e-8 rad/s", "why_tests_cant": "The integral is defined on all times; tests compare single peaks.", "anchors": ["src/pystrata/motion.py:170-177", "src/pystrata/motion.py:60-65"]}
{"id": "C140", "title": "The method of a frequency-dependent analysis is the one named", "statement": "`ka02` selects the Kausel and Assimaki shape, `zr15` the normalised spectrum, `ko:` followed by a number Konno-Ohmachi smoothing with that bandwidth; what follows `ko:` and is not a number raises ValueError. The smoother kept in the calculator never changes a result: in any sequence of analyses each uses the method a new calculator would use. A name that is none of the documented ones is refused (false: every other text silently selects zr15).", "quantifier": "all method strings, frequencies and sequences of analyses with one calculator", "why_tests_cant": "All strings and all histories of a calculator; tests use a few names and new calculators.", "anchors": ["src/pystrata/propagation.py:918-938", "src/pystrata/propagation.py:951-1001"]}
{"id": "C141", "title": "The drawing of a profile shows each layer over its own depths", "statement": "At every depth strictly between top and base of a layer the line drawn by Profile.plot has exactly the value of the property in that layer; the whole line lies between the surface and the top of the half-space, within the default limits of the downward depth axis; the label is the one of the property; settings given by the user replace the defaults one by one and do not change the line. An empty profile (IndexError), a name outside the table (KeyError) and a property that is an array in some layer (ValueError) are refused, nothing else. After a frequency-dependent analysis the strains, and damping, velocity and travel time if a layer has curves, are always refused.", "quantifier": "all profiles with positive thicknesses above the half-space, property names and settings; all frequency-dependent analyses with at least one iteration", "why_tests_cant": "All depths of all profiles and all analyses; tests do not look at drawings.", "anchors": ["src/pystrata/site.py:2351-2378", "src/pystrata/site.py:2380-2435"]}
{"id": "C142", "title": "Bounds and limits of the quarter-wavelength amplification", "statement": "With the standard exponent, the quarter-wavelength amplification lies at every frequency between the square roots of the impedance of the half-space over the largest and over the smallest impedance that the densities and velocities of the profile allow. At frequencies so high that a quarter of the wavelength, in the top layer and at the mean slowness of the profile, is at most the thickness of the top layer, the calculation succeeds and gives exactly the square root of the impedance ratio of half-space and top layer. Towards low frequencies the amplification and the site term tend to 1. For an undamped layer on a half-space the linear wave propagation amplifies, at every resonance above the lowest, by the square of the quarter-wavelength amplification.", "quantifier": "All profiles with at least one layer, thicknesses >= 0 and positive slownesses and densities, all positive frequencies, all attenuations; up to 10^12 layers for the limit at high frequencies; all numbers n >= 1 of the resonance whose angular frequency is not close to zero.", "why_tests_cant": "The limits concern frequencies without bound, and the relation of two different calculations at infinitely many resonances; tests compare some frequencies of some profiles.", "anchors": ["src/pystrata/propagation.py:76-113", "src/pystrata/propagation.py:408-453"]}
{"id": "C143", "title": "Averages and quarter-wavelength amplification do not depend on the division into layers", "statement": "For lists of layers that describe the same site (the same slowness and density at every depth, the same depth of the half-space) the depth averages of my_trapz agree at every depth, the average slowness is one over time_average_vel of the profile, and the quarter-wavelength amplification is the same. (Refuted for the amplification: the iteration starts from the mean of the slownesses of the layers whatever their thickness and stops at a tolerance of 1 %. 10 m of 200 m/s over 300 m/s gives another amplification at 3 Hz as one layer than as two of 5 m, and a cap of rock over soft soil raises RuntimeError with fourteen sublayers but not with twenty-four. Proved for divisions with the same mean of the slownesses, for both methods.)", "quantifier": "All lists of layers with thicknesses >= 0 and positive slownesses and densities, all depths > 0, all positive frequencies, methods and attenuations.", "why_tests_cant": "The claim relates all divisions of a site; tests use one division each.", "anchors": ["src/pystrata/propagation.py:76-113", "src/pystrata/propagation.py:408-453", "src/pystrata/site.py:2281-2307"]}
{"id": "C144", "title": "Weak motions with the frequency-dependent calculator", "statement": "Let every layer keep a constant fraction of its modulus and its minimum damping up to some strain, the half-space its whole modulus. If neither the strains estimated from the peak velocity nor the effective strains of the linear-elastic analysis with these fractions exceed that strain, the frequency-dependent equivalent-linear analysis returns after one iteration, with every method (ka02, ko, zr15): its waves, and its layers at every frequency, are those of that linear-elastic analysis. For every such site and motion this holds for the motion multiplied by any sufficiently small positive factor.", "quantifier": "all profiles, motions with one amplitude per frequency, methods, strain ratios, limits and curves with a constant start; all sufficiently small factors", "why_tests_cant": "The tests run a few motions of ordinary strength; that the strains of all frequencies stay on the constant part of the curves, for every method and spectrum, needs proof.", "anchors": ["src/pystrata/propagation.py:755-817", "src/pystrata/propagation.py:879-1001", "src/pystrata/site.py:1915-1946"]}
{"id": "C145", "title": "Similar sites with the frequency-dependent calculator", "statement": "If all thicknesses are multiplied by t, velocities by a and unit weights by r, and the input motion has its frequencies multiplied by a/t and its accelerations by a\u00b2/t (its velocities and Fourier amplitudes then by a), the frequency-dependent equivalent-linear analysis takes the same course: it performs the same number of iterations, with the same strains and dampings of every layer at corresponding frequencies, the same maximum strains and errors, ends in the same way (return or exception), and has all moduli multiplied by r a\u00b2; the acceleration transfer functions between corresponding depths at corresponding frequencies are the same. This holds for all methods; with ko the smoothing at the frequencies of the similar motion has to give the smoothed values times t/a for a spectrum times t/a.", "quantifier": "all profiles of layers with positive unit weight and velocity and curves bounded below by a positive limit, all positive factors, motions with one amplitude per frequency none of which is treated as zero in only one of the analyses, all methods, settings and input locations, with and without reset of the layers", "why_tests_cant": "Tests use one unit system and fixed sites; a strain spectrum normalised with a quantity of another dimension gives plausible numbers.", "anchors": ["src/pystrata/propagation.py:755-817", "src/pystrata/propagation.py:879-1001", "src/pystrata/site.py:1683-1747", "src/pystrata/site.py:1915-1946"]}
{"id": "C146", "title": "Data frames of statistics", "statement": "calc_stats(as_dataframe=True) of an output with fixed frequencies and at least two results returns a data frame exactly if the longest result has as many entries as there are frequencies; its index is named \"freq\" and holds the frequencies, and row i holds the median (geometric mean) and logarithmic standard deviation of the values recorded at frequency i. A profile output does whenever it has statistics; its index is named \"depth\" and holds the depths given, or 512 depths from 0 to 1.05 times the deepest reference. With a single result all outputs raise (ValueError, for profiles IndexError), without result TypeError, for profiles AttributeError or, with the default depths, ValueError. Time series never give a data frame, whatever calls and resets were made: the times of several results are a 2-D array.", "quantifier": "every class of output, every sequence of calls and resets (for time series also with failing calls, each with at least one time), every length and value of the results and depths asked for", "why_tests_cant": "The tests ask for statistics of particular outputs; the data frame of time series is never asked for.", "anchors": ["src/pystrata/output.py:237-247", "src/pystrata/output.py:363", "src/pystrata/output.py:469", "src/pystrata/output.py:651-667"]}
{"id": "C147", "title": "Profile outputs after a frequency-dependent analysis", "statement": "After a frequency-dependent equivalent-linear analysis with at least one iteration, the damping, G/Gmax and cyclic stress ratio profiles record numbers only if no layer above the half-space has the corresponding curve (damping, or modulus reduction). If every such layer has it, the first call records a table with one column for every frequency (row 0 repeats row 1), which the output then takes for as many results, and every later call raises an AssertionError; if only some have it, already the first call raises a ValueError. In both cases the name and the depths of the failed call stay recorded without values. The initial velocity profile and the strain-compatible velocity profile always record one number per layer; the latter is the lowest velocity of all frequencies. The value at a frequency is the damping, the modulus divided by the product of density and squared initial velocity, or 0.65 times modulus times maximum strain divided by the vertical stress. A profile without a layer above the half-space raises an IndexError, the name and the depths staying recorded.", "quantifier": "all profiles with a layer above the half-space, motions with one amplitude per frequency, methods, settings, with and without reset, all states of the output", "why_tests_cant": "The profile outputs are tested after equivalent-linear analyses, where properties are numbers; the failures depend on which soils of the profile have curves and on whether the output was used before.", "anchors": ["src/pystrata/output.py:142-172", "src/pystrata/output.py:223-235", "src/pystrata/output.py:736-815", "src/pystrata/site.py:1888-1905", "src/pystrata/propagation.py:785-795"]}
{"id": "C148", "title": "Files of the National Crustal Model", "statement": "fetch_ncm_profile asks for the location and the three numbers of the depths in that order. It writes a file only if the decoded response is an object whose status is \"sucess\" or \"success\"; then no other file changes and the file holds the response. Otherwise nothing is written: an error of the request is passed on, an object with another or no status is a RuntimeError, anything else an AttributeError. load_ncm_profile of a fetched file gives what the response gives, whether the file was compressed or not: the rows come from the first result and from the depths of the request, and nothing else in the document matters. No results (an empty list, null, ...) is a ValueError; a missing \"response\", \"results\", \"location\" or \"water_table_depth\" is a KeyError; a missing file is a FileNotFoundError, and an empty file or one that is not JSON a ValueError.", "quantifier": "all servers, file systems, paths, numbers of the request, decoded documents and tolerances, with and without compression", "why_tests_cant": "No test may use the network; the tests load one stored file. That both formats load alike, and that nothing is written after a failure, concerns all documents.", "anchors": ["src/pystrata/generic.py:105-163", "src/pystrata/generic.py:166-231"]}
{"id": "C149", "title": "The store of published curves", "statement": "_load_published_curves, for any content of the data file: the names known are the different names of the file in the order of their first occurrence, and a name stands for its last model (other names are a KeyError). A warning is issued exactly if a name occurs more than once, and it lists each such name once. A file without models is a ValueError and nothing is stored. The file is read only once: after a call that loaded it, all further calls of known_published_curves and from_published answer from what was first loaded, whatever the file then contains. The file of the package loads without a warning and gives the names and tables of C92.", "quantifier": "all contents of the data file, all sequences of calls, all names and parameters", "why_tests_cant": "Tests use the file of the package, which has no repeated names, and one order of calls.", "anchors": ["src/pystrata/site.py:45-69", "src/pystrata/site.py:129-135", "src/pystrata/data/published_curves.toml"]}
{"id": "C150", "title": "Motion within layered sites up to the first resonance", "statement": "For layers without damping the motion within the top of any layer is a real multiple of the motion of the surface, at every frequency. Let T be the travel time from the surface to that layer. (a) If the impedance does not decrease with depth, then for all frequencies below 1/(4T) the multiple is between cos(2 pi f T) and 1, so the amplification from that motion to the surface is between 1 and 1/cos(2 pi f T): no resonance below 1/(4T). (b) If the impedance does not increase with depth, then for frequencies up to 1/(4T) the multiple is at most cos(2 pi f T) as long as all layers above move in phase with the surface; at 1/(4T) the motion of this layer or of one above it is zero or opposite to that of the surface. (c) For all impedances, as long as the layers down to this one move in phase with the surface and are no thicker than a quarter wavelength, the amplification grows with frequency and the motion decreases with depth; in case (a) this holds for all frequencies below 1/(4T). (d) The first resonance (the top of the layer at rest, all layers above in phase with the surface) exists: it is at or below the frequency at which the first of the layers above is a quarter wavelength thick, and in case (b) at or below 1/(4T).", "quantifier": "all numbers of layers, weights, moduli and thicknesses, all angular frequencies above 1e-8", "why_tests_cant": "The tests evaluate a few profiles at a few frequencies; the bounds concern all frequencies below the first resonance of all profiles.", "anchors": ["src/pystrata/propagation.py:116-172", "src/pystrata/propagation.py:594-669"]}
{"id": "C151", "title": "The response of a deposit grows with the impedance of the rock", "statement": "For the same layers (damped or not) on two half-spaces without damping: at every frequency, the motion anywhere in the layers relative to the outcropping motion of the half-space, and the strain anywhere in the layers, are at least as large on the half-space of greater impedance, and larger at most by the ratio of the impedances. On no half-space are they larger than relative to the motion within the top of the half-space (rigid rock), where that is not zero.", "quantifier": "all numbers of layers, weights, moduli, dampings and thicknesses, all locations in the layers and wave fields, all angular frequencies above 1e-8", "why_tests_cant": "A test compares a few profiles at a few frequencies, and for undamped layers alone the amplification is no simple function; the ordering rests on the energy balance of the damped layers.", "anchors": ["src/pystrata/propagation.py:116-204", "src/pystrata/propagation.py:594-719"]}
{"id": "C152", "title": "The surface motion of a layer on rock is a sum of echoes", "statement": "For a layer without damping on rock without damping, a travel time of the layer of d time steps, a Fourier length that is even, and the record given as the outcropping motion of the rock: the accelerations y calculated for the surface by AccelerationTSOutput satisfy, at every sample j of the record x (cut or padded with zeros to the Fourier length and repeated), (1+a)/2 y(j+d) + (1-a)/2 y(j-d) = x(j), a being the ratio of the impedances of layer and rock. No other series does. After any number m of echoes, y(j) is 2/(1+a) times the sum over i < m of r^i x(j-(2i+1)d), r = (a-1)/(a+1), plus r^m y(j-2md). The largest acceleration of the surface is at most max(1, 1/a) times that of the rock and at least that of the rock divided by max(1, a). A layer with the impedance of the rock only delays the motion.", "quantifier": "all weights, moduli and thicknesses, all records and even Fourier lengths whose frequencies above zero are distinguishable from zero (above 1e-8), all numbers of echoes", "why_tests_cant": "The values of a time series calculated through the Fourier transform are compared in tests with stored values; that they solve the reflection problem exactly in time, whatever the record, is a statement about every sample of every record.", "anchors": ["src/pystrata/propagation.py:116-204", "src/pystrata/propagation.py:594-676", "src/pystrata/motion.py:163-168", "src/pystrata/motion.py:229-243", "src/pystrata/output.py:372-400"]}
{"id": "C153", "title": "Strain-compatible states of the frequency-dependent analysis exist", "statement": "For the frequency-dependent equivalent linear analysis with the method zr15 or a smoothing method (ko-09 and its kind), on a site whose top layer is damped: there are strains, one for every layer above the half-space and every frequency, that the waves of the layers with the properties of the curves at these strains give back (the part of the peak strain in proportion to the strain amplitude of the frequency, or for smoothing the largest smoothed part of this or a higher frequency, times the strain ratio, cut at the strain limit). Strains are so compatible exactly if one step of the analysis reproduces them. A call without reset that starts from them ends after its first iteration and leaves the properties as they are. If the strains of the iterations converge at every frequency, then to compatible strains.", "quantifier": "all sites of valid layers with continuous curves and a damped top layer, all motions with a component of a positive frequency and positive peak factor, outcrop or incoming input, any smoothing that is continuous and keeps positive spectra positive", "why_tests_cant": "Existence of a fixed point of the iteration is a topological fact about the whole strain space; a test sees only that one run converged within its tolerance.", "anchors": ["src/pystrata/propagation.py:755-817", "src/pystrata/propagation.py:879-1001", "src/pystrata/site.py:1683-1712", "src/pystrata/site.py:1867-1946"]}
{"id": "C154", "title": "Motions of sites without damping are travelling waves", "statement": "For every site of layers without damping on rock without damping, a Fourier length that is even, and an input location where the wave field does not vanish at a frequency of the record (always so for outcropping and incoming motions): there are accelerations U and D of waves travelling up and down in each layer, functions of continuous time, periodic with the Fourier length, such that at the free surface the up-going wave is reflected, at every interface the motion (the up-going wave one travel time earlier plus the down-going one travel time later) and the stress (their difference times the impedance) are continuous, the motion at the input location passes through the samples of the record, and the accelerations calculated by AccelerationTSOutput at any location (within, outcrop or incoming; any depth) are the samples of the motion of these waves there. Over a period the waves travelling up in a layer carry as much energy as those travelling down. The motion of one outcrop, or the waves travelling up at one point, determine all waves. If the travel times of the layers are multiples of the time step, the same holds at the samples; if moreover the impedance does not decrease with depth, no calculated acceleration within the site at depths of whole time steps, of an outcrop, or of an incoming wave exceeds the largest calculated at the surface.", "quantifier": "all sites of plain layers (any number), all records, time steps and even Fourier lengths whose frequencies above zero are distinguishable from zero (above 1e-8), all input and output locations", "why_tests_cant": "That one family of waves explains the time series at all locations at once, whatever the record, is a statement about every sample of every record; tests compare single stored series.", "anchors": ["src/pystrata/propagation.py:116-204", "src/pystrata/propagation.py:594-676", "src/pystrata/motion.py:163-168", "src/pystrata/motion.py:229-243", "src/pystrata/output.py:372-400"]}
{"id": "C155", "title": "The mean amplification of sites without damping", "statement": "For every site of layers without damping on rock without damping, in which the travel time of each layer above the rock is a whole positive multiple of some time d: over every band of frequencies of width 1/d (above the frequencies taken for zero, wherever it starts), the mean of the squared amplification of the surface relative to the outcropping rock, as calculated by the linear elastic analysis, is exactly the impedance of the rock divided by the impedance of the top layer, whatever the layers between; the mean of the logarithm of the amplification is the sum over the interfaces of the logarithms of the transmission coefficients 2 Z(below) / (Z(above) + Z(below)); and each band has a frequency at which the amplification is at least the square root of the ratio of the impedances.", "quantifier": "all sites of plain layers (any number, any impedances) with commensurable travel times, all bands of one period starting above 1e-8 rad/s", "why_tests_cant": "An exact mean over a continuum of frequencies, equal for all intermediate layerings, cannot be observed on a grid of frequencies of a single site.", "anchors": ["src/pystrata/propagation.py:116-172", "src/pystrata/propagation.py:594-654"]}
{"id": "C156", "title": "Deconvolution", "statement": "Let a motion be calculated by AccelerationTSOutput at some location of a site (linear, equivalent-linear or frequency-dependent analysis, the layers being as the analysis left them), and let this motion be given as input at that location to an analysis of the same layers. If the wave field does not vanish at that location, the Fourier lengths are equal and even (they are, with the lengths chosen by the program) and the record has no component at its last frequency, then all accelerations, strains, stresses and response spectra calculated at any location are those of the first analysis; at the location of the record the record itself comes back, followed by its padding. Layers are strain compatible (with one strain per layer, or one per frequency) for the calculated motion exactly if they are for the record. A component at the last frequency can be lost: a record of 1 and -1 at outcropping rock gives no surface motion at all if the travel time of the layer is half the time step, so that nothing comes back.", "quantifier": "all sites, records, even Fourier lengths, input and output locations; records without component at the last frequency (the sum of the samples with alternating signs is zero)", "why_tests_cant": "The inverse property relates two complete analyses for every record and every pair of locations; tests run single analyses.", "anchors": ["src/pystrata/motion.py:163-168", "src/pystrata/motion.py:229-243", "src/pystrata/propagation.py:620-719", "src/pystrata/output.py:372-462", "src/pystrata/propagation.py:776-817"]}
{"id": "C157", "title": "A motion answers as the record given at construction, in whatever order it is asked", "statement": "A TimeSeriesMotion is an object that keeps a reference to the array of accelerations it was given, calculates the spectrum at construction, and remembers pga, pgv, arias_intensity and cav once they were read. For every history of reading these measures, times, freqs, fourier_amps, calculated time series and response spectra, in any order and any number of times, and of items written in between to any array of accelerations, the motion's own included: every answer (value or exception) is the one that a motion just constructed from the original record gives. The remembered measures therefore never differ from calculated ones, and reading one does not affect another. Only accels shows the present contents of the array (so after writing to the array given to the constructor, accels and the series calculated from the motion differ; a counterexample is proved). Construction fails exactly when the spectrum cannot be calculated.", "quantifier": "for all arrays, time steps, transform lengths, and all finite histories of queries and writes", "why_tests_cant": "The histories are infinitely many and interleave remembered values with changes of a shared array; a test fixes one order of reading and never writes to the array", "anchors": ["src/pystrata/motion.py:42-86", "src/pystrata/motion.py:95-227"]}
{"id": "C158", "title": "Percentile variates sit at their percentile of the sampled distribution", "statement": "As the comments of correlated_at_percentile say, the first variate for a percentile sits at exactly that percentile of the marginal distribution of the pairs sampled by TruncatedNorm.correlated. (Refuted for every limit, every correlation between -1 and 1 and every percentile except the median: the percent point function used is that of a wider normal distribution truncated at the same limits, so for p > 1/2 the variate is at a percentile of the sampled distribution strictly above p, and for p < 1/2 strictly below.) It holds for the median. The value for a percentile exists, is unique, lies strictly within the limits (so clipping does not change it), increases strictly with the percentile, and opposite percentiles p and 1-p give opposite pairs.", "quantifier": "for all limits > 0, correlations in [-1,1] and percentiles in (0,1)", "why_tests_cant": "The distributions are continuous and the parameters real numbers; a test can compare a few samples with a few quantiles up to statistical error only, and none of the tests relates the two modes", "anchors": ["src/pystrata/variation.py:52-63", "src/pystrata/variation.py:93-148"]}
{"id": "C159", "title": "With one damping ratio throughout, more damping means less motion at the surface", "statement": "For layers that all have the same damping ratio, on a half-space without damping: at every frequency, the motion of the surface relative to the outcropping motion of the half-space does not grow when the common damping ratio is increased (weights, moduli and thicknesses kept), and is strictly smaller if the ratio used by the calculator (limited to 0 to 0.49) is strictly greater and some layer has positive thickness. The same (not strictly) relative to the motion within the top of any half-space, where that is not zero. With unequal damping the statement is false: for 30 m of 800 m/s without damping over a seam of 4 cm of 60 m/s on rock of 3200 m/s, damping of 40 percent in the seam increases the motion of the surface at 10 Hz.", "quantifier": "all numbers of layers, weights, moduli and thicknesses, all pairs of damping ratios (also outside 0 to 0.49), all wave fields of the surface, all angular frequencies above 1e-8", "why_tests_cant": "A test compares a few profiles at a few frequencies. Near every resonance the effect is obvious, in the valleys between them it is not, and with unequal damping it fails; the theorem rests on the roots of the polynomials of a chain of masses and springs.", "anchors": ["src/pystrata/propagation.py:116-172", "src/pystrata/propagation.py:594-654", "src/pystrata/site.py:1836-1865"]}
{"id": "C160", "title": "A softer, heavier or thicker deposit resonates earlier and amplifies more up to its resonance", "statement": "Take two deposits of equally many undamped layers, where every layer of the second has a shear modulus at most, and a unit weight and a thickness at least, those of the first. At every frequency up to the first resonance of the softer deposit (layers at most a quarter wavelength thick, motions down to the layer in phase with the surface), the stiffer deposit is below its own first resonance too, and the motion of the surface relative to that within the top of any layer is at most that of the softer deposit, also when the stiffer one is taken at a lower frequency. Whenever the stiffer deposit resonates, the softer one has its first resonance at or below that frequency.", "quantifier": "all numbers of layers, weights, moduli and thicknesses of both deposits, all layers i, all pairs of angular frequencies w <= w' (above 1e-8) with w' up to the first resonance of the softer deposit", "why_tests_cant": "A test compares two profiles at a few frequencies; which of modulus, weight and thickness may change, and by how much in which layer, is a continuum, and beyond the first resonance the order fails.", "anchors": ["src/pystrata/propagation.py:116-172", "src/pystrata/propagation.py:594-654", "src/pystrata/site.py:1836-1865"]}
{"id": "C86", "title": "Kishida soil types give valid curves", "statement": "For every organic content >= 0, vertical stress and increasing non-negative strains, the tabulated modulus reduction starts at 1, is positive and strictly decreases, the damping is positive and strictly increases (no logarithm of a non-positive number); the curves do not depend on the laboratory consolidation ratio; the empirical unit weight is positive, increases with the vertical stress and decreases with the organic content, and a given unit weight is kept. (The exact range of stresses for which this holds for all lists of strains is proved: the exponent of the damping law positive, that is a stress above e^-9.63 kN/m\u00b2, and the slope of the modulus at zero strain not positive. That includes e^-9 to e^7.6 = 1998 kN/m\u00b2 for every organic content. Refuted for every soil without organic content from e^7.62 = 2039 kN/m\u00b2 on; from e^7.75 on the modulus increases already up to a strain of 0.001 percent, at e^10 the damping is NaN.)", "quantifier": "all organic contents >= 0, all stresses, lists of increasing strains of any length", "why_tests_cant": "The shape holds for a continuum of stresses, organic contents and strains; tests sample a few, and the failure needs stresses no test uses.", "anchors": ["src/pystrata/site.py:KishidaSoilType"]}
{"id": "C115", "title": "Layers of the empirical soil types soften and are damped more with increasing strain", "statement": "A layer made with a Darendeli, Menq, Rollins, two-parameter, Alemu or Kishida soil type has, for every pair of strains, at the larger strain a modulus that is not larger and a damping that is not smaller, and its modulus stays between a thousandth of the small-strain modulus and that modulus. This holds for the 20 default strains, 1e-4 % to 10^-1.5 in equal logarithmic steps, and for any positive increasing strains. The minimum damping of a layer is the damping at the first tabulated strain, which exceeds the minimum damping given to a Darendeli soil type. A minimum damping given to a Darendeli, Menq or Rollins soil type is used in place of that of the model (1 % for Rollins), coefficients given to a two-parameter soil type in place of the default ones.", "quantifier": "all arguments of the constructors in the ranges where the tabulated curves are monotone (C66, C84, C86), all tables of strains, all layers and strains", "why_tests_cant": "Tests read the tables at a few strains; between the points, beyond the ends and through the layer setters monotonicity is not sampled.", "anchors": ["src/pystrata/site.py:384-434", "src/pystrata/site.py:471-524", "src/pystrata/site.py:550-599", "src/pystrata/site.py:625-672", "src/pystrata/site.py:1356-1407", "src/pystrata/site.py:1444-1502", "src/pystrata/site.py:1540-1596", "src/pystrata/site.py:1940-2010"]}
{"id": "C161", "title": "Energy of calculated motions in time", "statement": "The time series that calc_time_series gives for a record and a transfer function has, for a record without a component at the last frequency, no more energy (sum of the squared samples) than that for a transfer function that is at no frequency of the record smaller; less, if it is smaller at one of them. Its Arias intensity is at most pi/2 g times the time step times that energy. Consequences for the surface motion computed from an outcropping record: more damping common to all layers gives less energy; undamped rock of greater impedance gives no less energy; and, with the motion within a layer given and a record that contains only frequencies up to the first resonance of the softer of two undamped sites, the softer site gives no less energy. The wave that goes down in undamped rock has at most the energy of the incoming wave: the same, if no layer is damped, and less, if a layer above with thickness is damped. (Refuted for a record with a component at the last frequency: there the inverse transform drops the imaginary part, so that a larger transfer function may give less energy.)", "quantifier": "all records of any even length, all time steps for which the first frequency exceeds the cut at zero, all transfer functions, all layered sites with positive moduli", "why_tests_cant": "The comparison is of whole time series for all records, sites and pairs of dampings; tests check single values of single records.", "anchors": ["src/pystrata/motion.py:186-194", "src/pystrata/motion.py:163-180", "src/pystrata/motion.py:229-246", "src/pystrata/propagation.py:620-660"]}
{"id": "C162", "title": "Damping of any distribution below the first resonance", "statement": "Take a site without damping and the same site with any dampings in its layers, different from layer to layer. At frequencies up to the first resonance of the undamped site (at which the motion at the top of layer i first vanishes relative to the surface), damping does not increase the calculated motion at the top of any layer j above, relative to the motion within the site at the top of layer i; nor, for undamped rock, the motion at the surface relative to the outcropping rock, and so, for a record with content at those frequencies only, not the energy of the calculated surface motion. With C160 the same bound holds for the undamped site replaced by a softer one, and in a deposit that stiffens with depth the surface moves at most 1/cos(w T) times the motion at the base, T being the travel time, for every distribution of damping. (Refuted beyond the first resonance: 15 percent of damping in a single thin layer may increase the surface motion, c162_one_layer_counterexample; see also C159.)", "quantifier": "all stacks of layers with positive unit weight and modulus, all dampings of the single layers, all frequencies up to the first resonance of the undamped stack", "why_tests_cant": "A test compares single sites at single frequencies; the statement covers every assignment of dampings to every stack.", "anchors": ["src/pystrata/propagation.py:116-172", "src/pystrata/propagation.py:594-654", "src/pystrata/site.py:1836-1865"]}
{"id": "C163", "title": "Strains and stresses in damped deposits below the first resonance", "statement": "Take a site without damping and the same site with any dampings in its layers. At frequencies up to the first resonance of the undamped site relative to the top of layer i, damping increases neither the calculated motion nor the strain nor the stress (with the complex or the real modulus) at any depth of any layer above, relative to the motion within the site at the top of layer i; and for a record with content at those frequencies only, not the sum of squares of the strain in time.", "quantifier": "all stacks of layers with positive unit weight and modulus, all dampings of the single layers, all depths in all layers, all frequencies up to the first resonance of the undamped stack", "why_tests_cant": "A test compares single sites, depths and frequencies; the statement covers every assignment of dampings to every stack and every depth.", "anchors": ["src/pystrata/propagation.py:116-172", "src/pystrata/propagation.py:594-654", "src/pystrata/site.py:1836-1865", "src/pystrata/propagation.py:656-676", "src/pystrata/propagation.py:678-719"]}
{"id": "C164", "title": "Peaks of calculated motions and the amplitudes of the record", "statement": "For a record of even Fourier length, the peak of the motion after a transfer function is at most the sum over the frequencies of the absolute Fourier amplitude times the absolute transfer function (first and last frequency once, the others twice), times the frequency step; the bound is reached when all components agree in phase at the start. A change of the transfer function changes the peak by at most the same sum with the absolute change. The ordinates of the response spectrum obey the bound with the transfer function of the oscillator. At the surface of a deposit that gets stiffer with depth, with any dampings, the peak is at most the sum with 1/cos(wT), T the travel time, if all frequencies in the record are below w = pi/(2T); and the peak strains in any layer with any dampings at most the sum with the strains of the undamped deposit, below its first resonance. The peak velocity is at most the sum of the amplitudes of the record divided by the angular frequencies.", "quantifier": "all records and even Fourier lengths, all transfer functions of the right length, all oscillators, all deposits and dampings", "why_tests_cant": "A test compares the peak of single records with a number; the statement bounds the peak for every record and every transfer function, shows that the bound cannot be improved, and that peaks depend continuously on the transfer function with a known constant.", "anchors": ["src/pystrata/motion.py:163-168", "src/pystrata/motion.py:182-184", "src/pystrata/motion.py:196-227", "src/pystrata/propagation.py:594-654", "src/pystrata/propagation.py:656-676", "src/pystrata/motion.py:170-177"]}
{"id": "C165", "title": "Layers and soil types are found again in sets and dictionaries", "statement": "A layer or soil type put in a set is found by an equal one, whatever objects were made in between. (Refuted: the hash is that of the address of a view made for the call. It depends on the memory block freed last and not on the object: any two objects have the same hash while that block is free, and the same object another hash once it is taken. Proved: an object is found by an equal one exactly if the two hashes taken agree; iter_soil_types, which keeps layers in a set, gives the soil types of all layers for all hashes; with soil types in its set, as seems to be meant, it would give each once if all hashes agree and still one per layer if all differ.)", "quantifier": "all layers, soil types and profiles, all states of the free memory, all sequences of hashes", "why_tests_cant": "A test runs in one state of the allocator, usually one where the block just freed is used again, so that all hashes agree; the failure needs an allocation in between.", "anchors": ["src/pystrata/site.py:363-367", "src/pystrata/site.py:1764-1771", "src/pystrata/site.py:2144-2151"]}
{"id": "C166", "title": "Layers stay without gaps and the lookup of depths safe in rounded arithmetic", "statement": "With every operation rounded (any rounding that keeps the order and the representable numbers and has a relative error of at most u): the base of each layer is exactly the depth of the next and stress_vert at the base exactly the stress at the top of the next; no two layers share a depth; the depth at the top of layer i has a relative error of at most (1 + u)^i - 1 and the total vertical stress there of at most (1 + u)^(i+1) - 1 (with 1 - u for the lower bounds); for every representable depth lookup_depth gives a layer around it and a depth within it that is neither negative nor more than the thickness of the layer, so that the assertion of stress_vert holds in every layer above the last. A layer with a positive thickness may be lost, its base being equal to its top. The middle of a layer lies between its top and its base, both included, and half of the thickness passes the assertion of stress_vert; placing the layers from any layer on gives the same depths and stresses.", "quantifier": "all roundings, numbers of layers, thicknesses, unit weights and depths", "why_tests_cant": "Tests use a few depths and thicknesses with few digits, whose sums are exact or nearly so; an assertion that fails by the last digit needs particular numbers.", "anchors": ["src/pystrata/site.py:1787-1790", "src/pystrata/site.py:1984-1991", "src/pystrata/site.py:2125-2142", "src/pystrata/site.py:2215-2244", "src/pystrata/site.py:1782-1785"]}
{"id": "C167", "title": "The Toro thickness model ends at the total depth in rounded arithmetic", "statement": "The first depth of the formula beyond the total depth gives the last layer of iter_thickness. (Refuted in binary64: for a total of 50.1 m and a layer that ends at 7.518765387265024 m the next layer ends one unit in the last place above the total and a third layer of 2^-47 m follows. Proved: in exact arithmetic the layer is the last and ends at the total; with any rounding it is the last if it ends, as rounded, at or below the total, otherwise exactly one more follows if the remaining thickness and the total are representable; the difference is at most u (2 + u) of the total if each operation has a relative error of at most u.)", "quantifier": "all total depths, numbers of layers and depths of the formula, all roundings; the counterexample with rounding to nearest, ties to even, of 53 digits", "why_tests_cant": "The additional layer needs a tie of the rounding, which totals with few binary digits never give; a test that sums the thicknesses with a tolerance does not see it.", "anchors": ["src/pystrata/variation.py:218-245"]}
{"id": "C168", "title": "Sublayers of auto_discretize in rounded arithmetic", "statement": "The sublayers of a nonlinear layer are not thicker than the fraction of the wavelength asked for, and there are no more of them than needed. (Refuted in binary64 with the default arguments: a layer of 14 m with 140 m/s gets 26 sublayers where 25 are enough, and the sublayers of one of 13.5 m with 135 m/s are thicker than asked for by a unit in the last place. Proved for every rounding with a relative error of at most u < 1: the thicknesses add up to that of the layer within u; each is at most (1 + u)^3 / (1 - u) times the thickness asked for; one sublayer less, of the thickness asked for times (1 - u)^2 / (1 + u), would not reach the base of the layer.)", "quantifier": "all roundings, thicknesses, velocities, frequencies and fractions; the counterexamples with rounding to nearest, ties to even, of 53 digits", "why_tests_cant": "The number changes only where the quotient is near an integer; tests with other values, or that compare the total thickness with a tolerance, do not see it.", "anchors": ["src/pystrata/site.py:2177-2191"]}
