# Formal model of pystrata in Lean 4: design

The source is read as text from `/repo/src/pystrata` (pinned commit).  The model lives in
`lean/Verif/`, the properties in `properties.jsonl`, the mapping property → theorems in
`MANIFEST.json`, and the record of deliberately broken models in `seeded/LOG.jsonl`.

## 1. Layout

| directory | content |
|---|---|
| `Verif/Py/Basic.lean` | the few Python/numpy primitives the code uses (`np.clip`, `np.isclose`, `np.cumsum`, `np.diff`, `np.interp`, `np.trapezoid`, `itertools.product`, list indexing, ...) |
| `Verif/Model/*.lean` | the model, one file per source module or class; every definition cites file and lines |
| `Verif/Spec/*.lean` | small specifications that do not mention the model's helper functions |
| `Verif/Lemmas/*.lean` | helper lemmas, not part of the claims |
| `Verif/Props/*.lean` | the property theorems named in `MANIFEST.json`, each followed by an `example` with a concrete, non-trivial instance |

Theorem names start with the property id (`c07_...`), a `_partial` suffix means that the theorem
is weaker than the property, `_counterexample` marks a proved disagreement between
code and property.

## 2. Modelling conventions

* **Numbers.** Floating point is replaced by exact arithmetic.  Purely arithmetic code is modelled
  over an arbitrary linearly ordered field `K` (executable at `ℚ`, and theorems hold at `ℝ`); code with
  `log`, `exp`, `sqrt`, powers is modelled over `ℝ`; wave propagation over `ℂ`.  No statement here says anything
  about rounding.  `nan`/`inf` appear only where the code produces or tests for them on purpose
  (`Option` / explicit cases).  Division by zero in Lean gives 0, so theorems that go through a
  division carry a non-zero hypothesis, unless stated otherwise.
* **Exceptions** are values: `Except Err α`, or `Option` where only one exception is possible.
* **Mutable objects.** Profiles are modelled twice: at value level (lists of layers), and, for properties about
  aliasing and equality-vs-identity, as an object memory (`Mem` in `Model/Profile`) addressed by references.
* **Randomness and external code** (numpy generators, `scipy`, `pyrvt`, optimizers, regular
  expressions, smoothing) are parameters; theorems hold for every value they may return (under
  stated conditions).
* **Loops** are structural recursions; `while` loops and iterations carry an explicit bound, taken from the code
  (`max_iterations`) where it has one.
* **Arrays** are lists.  Vectorised numpy over frequencies is modelled per frequency where the code is pointwise.

## 3. Properties: what is modelled, how it is proved

(status in `MANIFEST.json`; "refuted" = the property as stated is false of the code, the negation is proved with a concrete witness and a restricted version is proved as `_partial`)

| id | model | proof idea |
|---|---|---|
| C01 | `Model/LogicTree`: nodes, alternatives, conditions, product, validity, dedup | induction on nodes; membership in product; dedup keeps one representative of each key |
| C02 | same | dedup produces pairwise distinct keys and a sublist; each kept element is the first with its key |
| C03 | same | sum over product = product of sums by induction; dedup is the identity under distinct values. Refuted without distinct values |
| C04 | `condition matches`, lazily evaluated with KeyError | case analysis against a first-order spec |
| C05 | `find?`/`filter` | list lemmas |
| C06 | table of rationals | kernel computation (`decide`) on the 9 tables |
| C07 | `Model/Profile` (object memory): `update_layers` on layer objects | loop invariant, induction over operation histories; refuted for value-equal layers and negative insert |
| C08 | stress computed from `update_layers` | same invariant |
| C09 | `lookup_depth` loop | induction |
| C10 | `location`, `index` by equality | list lemmas; refuted with two equal layers |
| C11 | `time_average_vel`: cumsum, interp, appended point | lemma: `np.interp` of cumulative travel time is the travel-time function |
| C12 | `vs30` | same; refuted on a shallow profile |
| C13 | `auto_discretize` | `Nat.ceil` lemmas, sums of replicate |
| C14 | wave recurrence over `ℂ` | transfer step composes: step h1 ∘ step h2 = step (h1+h2) for equal material |
| C15 | `pore_pressure`, `stress_vert` | linear arithmetic |
| C16, C17 | `Model/Profile`, `Model/ProfileVary` | explicit heaps; frame lemma: untouched references; refuted after strain assignment resp. for half-space depth variation |
| C18 | `iter_soil_types` | refuted by two layers |
| C19, C20 | `Model/Layer`, `Model/CurveObj` over `ℝ` | clip lemmas; interpolation lemmas in `Lemmas/Interp` |
| C21–C24 | `Model/Layer`: IterativeValue, strain setter, reset | state machine over histories; C24 refuted |
| C25–C33 | `Model/Waves` | field algebra, `HasDerivAt`, energy flux monotone (C29), induction on layers |
| C34–C38 | `Model/Eql`: loop with the strain response as a parameter | loop invariants |
| C39 | `Model/Fdm` strain functions | list max lemmas |
| C40, C41 | `Model/Qwl` | integral of a step function spec; bounded iteration |
| C42–C45 | `Model/Motion` incl. DFT | `Nat.find`-style minimality; geometric sums of roots of unity |
| C46–C50 | `Model/Output` | induction over call histories |
| C51–C57 | `Model/Variation` | draws are parameters; induction |
| C58–C63 | `Model/Tools` | list/string lemmas |
| C64, C65 | `Model/Generic` | induction on groups; calculus-free monotonicity of log |
| C66–C69 | `Model/SoilModels`, `Model/Wang` | real-analysis inequalities; finite case analysis over the table of required parameters |
| C70 | `Model/Waves` | uniqueness from the invertible transfer step |
| C71 | `Model/Qwl` | monotone iteration; a cycle is proved for a profile with a strong contrast |
| C72 | `Model/Motion` | DFT identities |
| C73 | `Model/Output` | interpolation of the step table; refuted in the lower half of layers |
| C74–C79 | `Model/Variation` | draws are parameters; algebra and case analysis |
| C80–C83 | `Model/Tools` | induction over lines and columns of text |
| C84, C85 | `Model/SoilModels` | real-analysis inequalities |
| C86 | `Model/Kishida` | sign of the derivative of the modulus; refuted at high stress |
| C87, C88 | `Model/Readers` | list and string lemmas; refuting files |
| C89–C92 | `Model/CurveObj`, `Model/PublishedData` | state machine; kernel computation on the tables |
| C93, C94 | `Model/Rayleigh` | integral bounds; refuted for a uniform site |
| C95, C96 | `Model/DataFrame` | rows to layers; round trip refuted by column names |
| C97–C100 | `Model/Fdm` | loop invariants, bounds, independence of history |
| C101, C102 | `Model/OutputValues` | unfolding against separate formulas |
| C103 | `Model/Eql` | unfolding against the strain at mid-height |
| C104 | `Model/AttenScatter` | algebra; refuted for a uniform damped profile |
| C105 | `Model/Realizations` | frame lemmas on the object memory |
| C106 | `Model/ShakeMotion` | induction over lines; refuting files |
| C107 | `Model/QwlFit`, the minimizer is a parameter | bounds carried through the parameter vector |
| C108 | `Model/ToroGeneric` | finite tables; refuting calls |
| C109 | `Model/AmpEvolution` | pointwise unfolding; default limits refuted |
| C110 | `Model/LayerResults` | unfolding against the curves |
| C111 | `Model/OutputFrame` | history invariant of C46; single profile result and failed calls refuted |
| C112 | `Model/Waves` | the recursion is a rotation followed by a stretch of the imaginary part by the impedance ratio; products by induction |
| C113 | `Model/SoilVary` | interpolation of the varied table, bounded by the limits; scaling of interpolation |
| C114 | `Model/Waves`, `Model/Layer` | derivative of the energy flux and the fundamental theorem of calculus in each layer, continuity of displacement and stress at the interfaces |
| C115 | `Model/SoilTypes`, `Model/SoilModels`, `Model/Kishida` | tables of C66, C67, C84, C86 and monotone interpolation (C20) |
| C116 | `Model/SoilModels`, `Model/Kishida` | power laws of real powers, evaluation at one atmosphere |
| C117 | `Model/Collection`, `Model/Output` | induction over the outputs (first one that raises) and over histories, using C46 and C47 for each output |
| C118 | `Model/Waves`, `Model/Eql`, `Model/Layer`, `Model/Motion` | scaling of wave numbers and of the recursion, simulation of one run of the iteration by the other |
| C119 | `Model/Eql`, `Model/Layer`, `Model/SoilTypes` | plateau of interpolated curves, one unfolding of the loop, a bound on finitely many strains for the limit |
| C120 | `Model/Exclude`, `Model/Tools` | infix and prefix tests on lists of characters, C63 for the adjustment |
| C121 | `Model/Motion`, `Lemmas/Fourier`, `Model/Waves` | convolution theorem and Parseval for the concrete sums of the transforms |
| C122 | `Model/Waves`, `Model/Layer` | energy balance (C114) gives a positive flux, hence a non-zero motion; norm of the complex cosine for the top layer |
| C123 | `Model/Waves` | two steps through a layer without thickness are one step; induction on the layers |
| C124 | `Model/Waves` | amplitudes depend on the layers above only; explicit last step and limit |
| C125 | `Model/Waves`, `Model/Layer` | limits of amplitudes by induction; recursion of the traction |
| C126 | `Model/Waves` | parallelogram law at each interface, induction |
| C127 | `Model/QwlFloat` | finite numbers embed; infinity and nan propagate through the loop |
| C128 | `Model/Wang` | case analysis over levels; monotone powers |
| C129 | `Model/Waves`, `Model/Layer` | composition of continuous functions; the denominator is not zero (C29) |
| C130 | `Model/Eql`, `Model/Motion` | Brouwer's fixed point theorem (proved in `Lemmas/Brouwer` after C. A. Rogers) for the map of strains to strains; continuity (C129) for the limits |
| C131 | `Model/Distribution` | the normal distribution on symmetric intervals (`Lemmas/GaussTrunc`); pairs by their sum and difference, which are independent; the first valid of independent draws has the conditional distribution; absolute value of a symmetric matrix |
| C132 | `Model/Variation` | exponential increments give a Poisson process (`Lemmas/PoissonProcess`): induction over the counts, integrating over the first increment; change of variables by the inverse of the cumulative rate |
| C133 | `Model/Distribution`, `Model/Variation` | symmetry of the pairs for the medians; the sign of the covariance by Chebyshev's inequality applied twice (`Lemmas/Assoc`) to the conditional densities, whose ratio is ordered; the size of the correlation by exchanging sum and difference |
| C134 | `Model/LogicTree` | the description of a tree of strings and numbers is built; loading never makes a tuple; the loop reaches the valid branch with a list, whose key has no hash |
| C135 | `Model/Output` | `np.log` of zero is minus infinity and of a negative number NaN; the entries are split into missing, negative, zero and positive ones; histories by the table of C46 |
| C136 | `Model/OutputPlot` | a plot is its lines with their labels; the rule by which `matplotlib` pairs columns is written out; the table of C46 gives the arrays after any history |
| C137 | `Model/Motion` | ordinates are finite maxima of inverse transforms, limits are taken coefficient by coefficient; the bound by Parseval's theorem |
| C138 | `Model/OutputValues`, `Model/Waves` | the series as samples of trigonometric sums over the unit responses of C70; derivatives term by term |
| C139 | `Model/Motion` | as C138, with the transfer function from acceleration to velocity |
| C140 | `Model/Names` | case distinction over the text; induction over the analyses with the kept smoother as invariant |
| C141 | `Model/ProfilePlot` | induction over the vertices of the step line; for frequency-dependent analyses by the invariant of the layers after the last iteration |
| C142 | `Model/Qwl`, `Model/Waves` | invariants of the iterated depths; closed form of the iterates in the top layer; for large depths the averages tend to the values of the half-space; resonance from C112 |
| C143 | `Model/Qwl`, `Model/Profile` | averages from the integral of C40; the loop depends on the layers by the averages and the first depths only; counterexamples by invariants of the iterated depths |
| C144 | `Model/Fdm`, `Model/Eql` | the estimate ends on the plateau (C119); strains of all frequencies are below the effective one (C98), so the arrays assigned are constant and the error is zero |
| C145 | `Model/Fdm`, `Model/Eql`, `Model/Motion` | as C118 for the estimate; strain spectra are multiplied by t/a, which cancels in the three methods; simulation of one run by the other with arrays of properties |
| C146 | `Model/StatsFrame`, `Model/Output` | invariants of histories of calls and resets (as C46, C50); for time series the pairing of 1-D and 2-D arrays |
| C147 | `Model/FdmProfiles`, `Model/Fdm`, `Model/Output` | the layers after the last iteration (C97) decide which values are arrays; the cases of `np.asarray` |
| C148 | `Model/Ncm`, `Model/Generic` | cases of the decoded document; a file is compressed or plain text of a document |
| C149 | `Model/PublishedStore`, `Model/CurveObj` | dictionaries as association lists; induction from the end of the file; invariance of the loaded store |
| C150 | `Model/Waves` | real recursion of the up-going amplitudes (motion and scaled stress); comparison of the phase with the travel time; monotony of the phase in the frequency |
| C151 | `Model/Waves` | the outcrop motion as base motion plus base traction over the impedance; the sign of their product from the energy balance (C114) |
| C152 | `Model/Waves`, `Model/Motion`, `Model/OutputValues` | the inverse of the transfer function has two terms (C112), each a shift by d samples in the discrete transform; contraction for the uniqueness and the peak |
| C153 | `Model/Fdm`, `Model/Waves`, `Model/Motion` | the step is a continuous map of the strains at all frequencies into a box (the strain nowhere vanishes, C122), so it has a fixed point by Brouwer; uniqueness of limits for converging iterations |
| C154 | `Model/Waves`, `Model/Motion`, `Model/OutputValues` | the amplitudes of the layers times the spectrum as trigonometric sums in time; delays are factors exp(i w T); shift-invariance of integrals over a period for the energy, which gives uniqueness; convex combinations for the largest motion |
| C155 | `Model/Waves` | up to a factor of size one the amplitudes are polynomials in z = exp(-i w d) without zeros in the closed unit disk (the up-going wave is never smaller than the down-going); the difference of their squared sizes is the product of the impedance ratios on the circle, so 1/size² is the real part of a holomorphic function over that product, whose mean is its value at the centre; the logarithm by the mean value property for functions without zeros |
| C156 | `Model/Motion`, `Model/Waves`, `Model/OutputValues`, `Model/Eql` | the transform of the samples of an inverse transform returns the coefficients (orthogonality), the last one without its imaginary part; transfer functions compose, so the product of the two analyses is the direct one at every frequency |
| C157 | `Model/MotionObject`, `Model/Motion` | the object with its remembered measures and the shared array as a state machine; an invariant (remembered values are those of the record, the array keeps its length) is kept by every query and every write |
| C158 | `Model/Distribution`, `Model/Variation` | the pair is split into the first value and an independent rest, so the sampled density is the normal one times a factor falling with the distance from 0; the density used for percentiles is wider; comparison of the ratios of the parts below and above the value |
| C159 | `Model/Layer`, `Model/Waves` | the layers are the limit of chains of masses and lossy springs (`Props/Lumps`); motion and force below a chain are polynomials in the loss factor whose roots are real and positive, because the power flowing into the chain vanishes only for real arguments; hence their moduli and the power grow with the loss; limit of fine chains |
| C160 | `Model/Layer`, `Model/Waves` | motion and force through a layer solve a linear equation with a flexibility and a mass; the Wronskian of the stiffer and the softer layer does not decrease, so the motion falls less through the stiffer one and stays positive; induction over the layers; the resonance from C150 |
| C161 | `Model/Motion`, `Model/Waves`, `Model/Layer` | Parseval for the padded record and the inverse transform; the coefficients are those of the record times the transfer function, conjugated in the upper half; the sizes compared by C159 (damping), C151 (rock), C160 (softer sites), C30 (wave going down) |
| C162 | `Model/Waves`, `Model/Layer` | layer by layer, with motion and force of the damped stack: sizes of sine, cosine and cotangent of a complex phase against those of its absolute value (monotone in the argument by derivatives); the ratio of motion to force stays right of the undamped one; the outcrop by the energy balance of C114 |
| C163 | `Model/Waves`, `Model/Layer` | as C162, with the layer cut at the depth: motion and force there from those at the top of the layer, and the motion at its bottom from those at the depth (angle addition); the absolute values of wave number and modulus do not depend on damping |
| C164 | `Model/Motion`, `Model/Waves` | triangle inequality in the inverse transform written out for its samples, equality in the first sample; the sites from C162 and C163 |
| C165 | `Model/Hashing` (on `Model/Profile`) | the hash is the first block of a list of free ones (the address given to the view), sets keep the hashes taken; refuted by one allocation between two hashes; the loop by induction, for every sequence of hashes |
| C166 | `Model/Rounding` | the loops of update_layers and lookup_depth with a rounding function applied to every result; error bounds by induction over the layers; the depth within a layer from monotonicity and the representable thickness; example with numbers of one binary digit rounded toward zero |
| C167 | `Model/RoundedLayering` | the loop of iter_thickness with a rounding function, the depths of the formula as a parameter; binary64 as a function on the rationals; refuted by evaluation in the kernel; the rest by induction over the depths |
| C168 | `Model/RoundedDiscretize` (on `Model/Rounding`, `Model/RoundedLayering`) | number and thickness of the sublayers with a rounding function over any ordered field; refuted in binary64 by evaluation in the kernel; the bounds from the relative error of each of the four operations |

## 4. Trusted base

* Lean's kernel (4.33.0) and the Mathlib oleans.
* The axioms `propext`, `Classical.choice`, `Quot.sound`; no others (section 6 lists the axioms per theorem).
* The reading of the Python source: each model definition cites the lines it was written from.
* The reading of numpy/scipy semantics in `Verif/Py`.

## 5. Not modelled

* floating-point rounding, overflow, dtype promotion, most broadcasting errors;
* `pyrvt`, `pykooh` (smoothing), numba compilation, plotting (except the data of `plot_amplification_evolv` and the lines and labels of output plots), file
  system and network access, JSON decoding;
* tuple names (multi-index columns) in data frames;
* the random generators themselves (for C131 to C133 their distributions are taken to be exact: truncated normal,
  multivariate normal with the covariance numpy's singular value decomposition gives, exponential); scipy's `fsolve`, and `minimize`, which is a parameter of
  C107: the points it evaluated and the point it returned, any lists; conditions on them are hypotheses of the theorems.

## 6. Axioms per theorem

Collected with `Lean.collectAxioms` for every property theorem.

* `Classical.choice`, `Quot.sound`, `propext`: all 795 property theorems not listed below.
* `Quot.sound`, `propext`: `c05_from_list`, `c05_node_iter`, `c05_tree_get`, `c07_halfspace_no_twin`, `c07_new_layer`, `c07_stale`, `c08_continuous`, `c08_stress_vert`, `c106_format`, `c106_format_found`, `c106_format_none`, `c106_rows`, `c10_depth`, `c10_errors`, `c111_fixed`, `c134_plain_partial`, `c134_tuple_counterexample`, `c13_linear_kept`, `c165_found_partial`, `c165_meant_different`, `c165_meant_same`, `c165_soil_types`, `c16_independent`, `c17_discretize_none`, `c18_soil_types_partial`, `c42_power`, `c46_read_back`, `c46_values`, `c47_names`, `c57_empty`, `c58_exhausted`, `c58_inverse`, `c58_length`, `c59_blocks_partial`, `c59_last_block_counterexample`, `c59_option_line`, `c62_empty`, `c64_partition`, `c64_refuses`, `c80_error_kind`, `c80_load_partial`, `c80_location_first`, `c80_profile_first`, `c81_curves`, `c81_name`, `c81_no_other`, `c88_no_layers`, `c88_nrattle_partial`, `c95_missing_column`.
* `propext`: `c05_to_xarray`, `c111_none`, `c117_counterexample`, `c148_url`, `c149_empty`, `c165_hash`, `c46_refs_counterexample`, `c47_reset`, `c48_counterexample`, `c48_partial`, `c48_profile_counterexample`, `c48_shift_counterexample`, `c57_same_iff`, `c92_tables`, `c95_from_dataframe`.
* `none`: `c92_names`.

## 7. Disagreements between code and documentation or claim

Those with a property id are proved. The others come from reading the source and are not proved.

Profile and layers
* `update_layers`, `location` compare by value, so equal layers are confused (C07, C10; the water table of a SHAKE profile, C82); negative insert (C07).
* `vs30` of a shallow profile (C12); copies use strain-compatible velocities (C16); half-space shared (C17);
  `iter_soil_types` never removes duplicates (C18).
* `from_dataframe` reads `vel_shear` but `to_dataframe` writes `shear_vel` (C96).
* `simplified_rayliegh_vel` of a uniform layer is 4v/pi (C94).

Curves and soil models
* malformed tables are silently linear (C90); decreasing strain order swaps fill values (C91).
* some published tables are not monotonic or lack a table (C92).
* default two-parameter modulus above 1 at high stress, Menq modulus increasing at tiny stress (C66).
* Wang `calc_damping` converts percent twice (C69); Kishida curves invalid at very high stress (C86).
* Wang formulas give complex numbers or a negative modulus for ordinary wet sands, dry clays and wet silts; no ranges are checked (C128).

Propagation
* the strain transfer function is 0 for frequencies up to 1e-8 rad/s, not its static limit (C125).
* a within motion a quarter wavelength down an undamped layer is zero; used as input it divides by zero (C122).
* the quarter-wavelength calculator raises RuntimeError for every motion with the frequency zero, so for every recorded motion (C127).
* the quarter-wavelength method 'ba23' gives nan at very low frequencies (C41).
* with the empirical soil types an equivalent-linear analysis does not tend to the linear-elastic one for weak motions (C119).
* CSR after a linear-elastic analysis is a TypeError (C110).
* fitting leaves the site attenuation at the last evaluated value; zero thickness gives NaN misfit (C107).
* the equivalent-linear iteration can alternate for ever between two states and then returns the last one without a warning (C130).
* `relative_error` is signed; non-convergence at `max_iterations` is silent; an unknown FDM method uses `zr15`.
* `@numba.jit` at propagation.py:76 is outside the `HAS_NUMBA` guard.
* ka02: with fewer than two frequencies below the average frequency the average strain is 0 and the fit gets infinities.

Outputs
* `CyclicStressRatioProfile` has no `xlabel`, so it can never be plotted; the check for three results lets a single one through, which raises later (C136).
* statistics of outputs: the comment "Ignore zeros in the data" is not what happens; a zero gives median 0 and ln_std NaN, as always at the surface for maximum strain (C135).
* an output of a collection that raises leaves the collection out of step (C117).
* `plot_amplification_evolv` reads `osc_damping` from `kwds` but leaves it there, so matplotlib rejects it (read, not modelled).
* MaxStrain and CSR use the next layer's value in the lower half (C73); default y-limits (0, 0) of the evolution (C109).
* data frame of a single profile result raises; a failed call leaves its name (C111).
* statistics of time series can never be put in a data frame (C146).
* after a frequency-dependent analysis damping, G/Gmax and stress ratio profiles record a column per frequency or raise
  (C147).
* FAS label says cm/s although amplitudes are in g-s; Arias time series shifted; `calc_stats` raises for one result.

Variation
* Toro distance (C74), sign of percentile pairs (C76), cycling (C77), support of the truncated normal (C78).
* the spread of varied velocities is greater than specified: clipped, but scaled for a truncated distribution; correlated pairs have less than unit spread (C131).
* the values for fixed percentiles are quantiles of a wider distribution than the sampled one: too extreme on both sides (C158).
* varied soil curves have smaller standard deviations than documented and a correlation closer to 0 than given (C133).
* depth-dependent generic model replaces a given `ln_std`; depth without `ln_std` raises when used (C108).
* varied small-strain damping has no effect on layers, damping may exceed `limits_damping` (C113).
* SPID `vary_bedrock` is not passed through; `usgs_site_class` at exactly 180.

Soil models
* modified-hyperbolic soil types with a strain of zero in the table have NaN damping at every strain from it on (C67).
* the minimum damping of a layer of a modified hyperbolic soil exceeds its `damping_min` (C115).
* a named `KishidaSoilType` gives its curves the generated name; `np.logspace(-6, 0.5)` in its docstring is `(-6, -1.5)` in the code.

Readers, tools and generic profiles
* logic trees with tuples of strings cannot be loaded from JSON: lists, which cannot be iterated over (C134).
* trimmed SHAKE fields shift (C58); unsupported SHAKE options raise (C80); multi-line SHAKE motions (C106).
* AT2 header "NPTS=, DT=" (C87); mistyped nrattle layer becomes the half-space (C88).
* the list form of `exclude` in `adjust_damping_values` tests substrings, other containers are ignored (C120).
* `load_ncm_profile` documents a `density` column but returns `unit_wt`, `mean_eff_stress` and `thickness`.
* scattering attenuation positive for a uniform damped profile (C104).
* half-space merged into the last group (C64); region names lower-case only (C65).
* water uses 9.81, gravity elsewhere 9.80665; unit-weight range 12-30 in the docs, 10-30 in the code.
* the quarter-wavelength calculation starts from the mean slowness of the layers whatever their thickness, so that its result, and whether it raises, depends on how a site is divided into layers (C143).
* an unknown or mistyped method of the frequency-dependent calculator is analysed like zr15, and named as given (C140).
* after a frequency-dependent analysis `profile.strain`, `damping`, `shear_vel` and `travel_time` raise ValueError, since the half-space keeps numbers (C141).
* `hash` of soil types and layers is that of a temporary object, so equal ones need not have equal hashes, nor the same one twice (C165).
* at the last frequency of an even-length record the inverse transform drops the imaginary part of the product, so a transfer function that is larger everywhere may give a motion with less energy (C161).
* beyond the first resonance, damping a single thin layer may increase the surface motion relative to the motion within the site (C162; for outcropping motion see C159). This is a fact of the wave equation, not an error of the program.
* `iter_thickness` sets the last depth to `depth_prev + (depth_total - depth_prev)`, which in floating-point numbers may be less than `depth_total`; the loop then adds a layer of one unit in the last place, for example 7e-15 m for a total of 50.1 m (C167). A transcription of the loop in plain Python (not the package, which cannot be run here) gave such a layer in about 1 to 2.5 % of 20000 profiles for totals of 30.3 and 50.1 m, in none for 100 m.
* `auto_discretize` takes the ceiling of a rounded quotient: where the thickness is a multiple of the one asked for, there may be one sublayer more than needed (14 m with 140 m/s: 26 instead of 25), or sublayers too thick by a unit in the last place (C168). Without practical effect.

## 8. Deliberately broken models (`seeded/LOG.jsonl`)

Each entry is one edit of a model definition in a scratch copy, followed by `lake build`.  At the time of writing there
are 2175 entries.  982 edits were written by hand:

* 488 where a theorem of the named claim fails;
* 377 where a lemma fails that theorems of the claim use (`theorems_blocked`, from the dependencies
  of the unedited project); those theorems were not rebuilt themselves;
* 31 not conclusive for the named claim (another claim, an unrelated lemma or only an example fails);
* 1 where a proof fails although the edited program provably does the same;
* 15 where the edited model does not build;
* 41 survivors; the entry says which theorems were added, whether the edit was repeated against them, or
  why the claim stays true.

The 1193 entries marked `automatic` are single-token edits made by a script (a number, an operator, a projection, a
comparison, an error class).  Their builds were stopped at the first failing declaration, and the claim named is that of the failing
theorem, or those of the theorems that use the failing lemma:

* 967 detected;
* 97 survivors for which a theorem was added and the edit repeated;
* 50 survivors that leave the program the same or concern what nothing is claimed about;
* 4 survivors not yet repeated against the present theorems;
* 73 not a test (the edited model does not build, or the build was stopped);
* 2 where only an example fails.

A failing proof is evidence, not a proof, that the statement is false of the edited model: a proof can also fail because
it is brittle.  Some survivors left the claim as then worded true; there the statement was widened (C64, C65, C66).
