{"id": "C01", "title": "Volume elements are products of bin widths", "statement": "cube.construct_volume_element(w) returns, for every valid distribution string w, an array that broadcasts against get_p(w) and whose entry at every cell is the product of the bin widths of exactly the dependent variables of w (position x contributes dx1*dx2, conditioning variables contribute nothing).", "quantifier": "all 65 valid distribution strings, all numbers of t, v, x1, x2, z bins, all bin widths, all cells", "why_tests_cant": "a test fixes one grid size and one array of values; the claim is for every number of bins and every stored density", "anchors": ["popkinmocks/ifu_cube.py:IFUCube.construct_volume_element"]}
{"id": "C02", "title": "Advertised shapes are the real shapes", "statement": "cube.get_distribution_shape(w) equals the shape of component.get_p(w) for every valid distribution string w, both weightings, density or not: axes appear in the order in which variables are written, x taking two axes.", "quantifier": "all 65 strings, all grid sizes, both weightings, both density flags", "why_tests_cant": "a test fixes one grid size and one array of values; the claim is for every number of bins and every stored density", "anchors": ["popkinmocks/ifu_cube.py:IFUCube.get_distribution_shape", "popkinmocks/components/base.py:Component.get_p"]}
{"id": "C03", "title": "Bins, centres, edges and extents agree", "statement": "For each variable t, v, x1, x2, z: the edge array is one longer than the value array, every value is the midpoint of its two edges, the first and last edges are the variable's extent (x1rng, x2rng, vrng, ...), and edges increase when the requested range does; any other variable name raises ValueError.", "quantifier": "all bin counts >= 1, all ranges, all variable names", "why_tests_cant": "floating ranges and bin counts are unbounded; tests look at one cube", "anchors": ["popkinmocks/ifu_cube.py:IFUCube.__init__", "popkinmocks/ifu_cube.py:IFUCube.get_variable_values", "popkinmocks/ifu_cube.py:IFUCube.get_variable_edges", "popkinmocks/ifu_cube.py:IFUCube.get_variable_extent"]}
{"id": "C04", "title": "A component never holds a density of the wrong shape", "statement": "Component(cube, log_p) succeeds iff the array shape equals (nt, nv, nx1, nx2, nz) of the cube, and otherwise raises ValueError; so every query on a constructed component sees axes that mean what the documentation says.", "quantifier": "all array shapes of every rank and all cubes", "why_tests_cant": "the set of wrong shapes is infinite", "anchors": ["popkinmocks/components/base.py:Component.__init__"]}
{"id": "C05", "title": "Marginals are the joint summed over the other variables", "statement": "For each of the 15 marginal strings w, get_p(w, density=False) at an index is the sum, over every cell of the five dimensional grid whose w-coordinates equal that index, of the joint probability density times bin volume.", "quantifier": "15 strings, all grid sizes, all non-negative densities including cells with probability zero, all indices", "why_tests_cant": "zero cells (log p = -inf), unequal bins and every axis order must be right for all sizes", "anchors": ["popkinmocks/components/base.py:Component._get_log_p_t", "popkinmocks/components/base.py:Component._get_log_p_tvxz", "popkinmocks/components/base.py:Component._get_log_marginal_distribution"]}
{"id": "C06", "title": "Conditionals are joint over marginal, and nan exactly where undefined", "statement": "For each of the 50 conditional strings a_b, get_p(a_b, density=False) is (sum of joint over cells matching a and b)/(sum over cells matching b), with a's axes first and then b's axes; the entry is nan iff the conditioning event has probability zero.", "quantifier": "50 strings, all grid sizes, all non-negative densities, all indices", "why_tests_cant": "each string exercises a different axis permutation; zero-probability conditioners are a measure-zero corner no fixture hits systematically", "anchors": ["popkinmocks/components/base.py:Component._get_log_conditional_distribution"]}
{"id": "C07", "title": "density=True is probability per bin volume", "statement": "For every valid string and both weightings, get_p(w, density=True) multiplied by the volume element of w equals get_p(w, density=False) at every cell (nan where the latter is nan).", "quantifier": "65 strings, both weightings, all grid sizes, all positive bin widths", "why_tests_cant": "a test fixes one grid size and one array of values; the claim is for every number of bins and every stored density", "anchors": ["popkinmocks/components/base.py:Component.get_log_p", "popkinmocks/ifu_cube.py:IFUCube.construct_volume_element"]}
{"id": "C08", "title": "Every distribution is normalised", "statement": "If the stored density integrates to one then every marginal probability array sums to one, and every conditional array sums to one over its dependent axes at each conditioning cell of non-zero probability; with a non-normalised density every marginal sums to the same total.", "quantifier": "65 strings, all grid sizes, all normalised densities", "why_tests_cant": "normalisation is an identity over all densities", "anchors": ["popkinmocks/components/base.py:Component.get_p"]}
{"id": "C09", "title": "Tower and chain rules hold between queries", "statement": "Summing get_p(w) over the axes of a variable gives get_p(w without that variable); get_p(a_b)*get_p(b) equals get_p(ab) wherever b has non-zero probability.", "quantifier": "all pairs of nested strings, all grids, all densities", "why_tests_cant": "consistency between different code paths for all inputs", "anchors": ["popkinmocks/components/base.py:Component._get_log_conditional_distribution", "popkinmocks/components/base.py:Component._get_log_p_tv"]}
{"id": "C10", "title": "Light weighting reweights by L(t,z) and renormalises", "statement": "With light_weighted=True every marginal and conditional is the one derived from the joint L(t,z) p(t,v,x,z)/sum(L p): light-weighted distributions sum to one whatever the total, are unchanged if all light weights are multiplied by one positive constant, and equal the mass-weighted ones if the light weights are all equal and p is normalised.", "quantifier": "all positive light weights, all densities, 65 strings", "why_tests_cant": "continuum of weights; requires an algebraic proof", "anchors": ["popkinmocks/components/base.py:Component._get_log_p_tvxz", "popkinmocks/model_grids.py:milesSSPs.get_light_weights"]}
{"id": "C11", "title": "Probabilities are probabilities", "statement": "get_p = exp(get_log_p) entrywise; marginal probability arrays of a normalised density are never nan or infinite and lie in [0,1]; conditional arrays lie in [0,1] or are nan.", "quantifier": "65 strings, both weightings, all normalised densities", "why_tests_cant": "range claim over all inputs", "anchors": ["popkinmocks/components/base.py:Component.get_p", "popkinmocks/components/base.py:Component.get_log_p"]}
{"id": "C12", "title": "Which distribution strings are accepted", "statement": "get_p accepts exactly: the 15 alphabetical marginals, and strings with exactly one underscore whose variables form (after sorting) a marginal and whose conditioner is a marginal; other strings raise (AttributeError for unknown marginals, ValueError for more than one underscore). Strings with unsorted dependent variables are not rejected: they return the array of the sorted string.", "quantifier": "all strings of characters", "why_tests_cant": "the set of strings is infinite", "anchors": ["popkinmocks/components/base.py:Component.get_log_p", "popkinmocks/components/base.py:Component._get_log_conditional_distribution"]}
{"id": "C13", "title": "Means are expectations", "statement": "get_mean(w) for every one-variable string a or a_b is the probability-weighted sum of bin centres; for x it stacks the two spatial means on a new first axis of size 2; shapes are those of the conditioners.", "quantifier": "32 strings, both weightings, all grids and densities", "why_tests_cant": "a test fixes one grid size and one array of values; the claim is for every number of bins and every stored density", "anchors": ["popkinmocks/components/base.py:Component.get_mean"]}
{"id": "C14", "title": "Means lie inside the grid", "statement": "Every mean or conditional mean with a conditioner of non-zero probability lies between the smallest and largest bin centre of its variable.", "quantifier": "32 strings, all normalised densities", "why_tests_cant": "inequality over all densities", "anchors": ["popkinmocks/components/base.py:Component.get_mean"]}
{"id": "C15", "title": "Law of total expectation", "statement": "The average of get_mean(a_b) weighted by get_p(b) equals get_mean(a), for all strings and both weightings (conditioners of zero probability excluded).", "quantifier": "all conditional strings, all densities", "why_tests_cant": "relates two code paths for all inputs", "anchors": ["popkinmocks/components/base.py:Component.get_mean"]}
{"id": "C16", "title": "Central moments and variance", "statement": "get_central_moment(w, j) is the probability weighted sum of (value - mean)^j; order 0 is 1 and order 1 is 0; get_variance is non-negative and equals E[a^2]-E[a]^2, get_dispersion is its square root; noncentral moments about any centre are the corresponding sums.", "quantifier": "all strings, all orders j, all densities, all centres", "why_tests_cant": "every order and every density", "anchors": ["popkinmocks/components/base.py:Component.get_noncentral_moment", "popkinmocks/components/base.py:Component.get_central_moment", "popkinmocks/components/base.py:Component.get_variance", "popkinmocks/components/base.py:Component.get_dispersion"]}
{"id": "C17", "title": "Skewness and kurtosis bounds", "statement": "Wherever the variance is positive, get_kurtosis >= 1 + get_skewness^2, hence get_excess_kurtosis >= -2; normalised second central moment is exactly 1; where the variance is zero the normalised moments of order >= 1 are nan (0/0).", "quantifier": "all one-variable strings, all densities", "why_tests_cant": "inequality over all densities", "anchors": ["popkinmocks/components/base.py:Component.get_skewness", "popkinmocks/components/base.py:Component.get_kurtosis", "popkinmocks/components/base.py:Component.get_excess_kurtosis", "popkinmocks/components/base.py:Component.get_normalised_central_moment"]}
{"id": "C18", "title": "Covariance is the covariance", "statement": "get_covariance(ab) and get_covariance(ab_c) equal the probability-weighted sum of (a-E[a|c])(b-E[b|c]), = E[ab|c]-E[a|c]E[b|c]; x stacks two components; anything but two dependent variables raises ValueError.", "quantifier": "24 strings with two dependents, all grids, all densities", "why_tests_cant": "axis bookkeeping differs in every case", "anchors": ["popkinmocks/components/base.py:Component.get_covariance"]}
{"id": "C19", "title": "Correlation lies in [-1, 1]", "statement": "get_correlation is covariance/sqrt(variance product) and lies in [-1,1] wherever both variances are positive; it is nan where one vanishes.", "quantifier": "24 strings, all densities", "why_tests_cant": "Cauchy-Schwarz over all densities", "anchors": ["popkinmocks/components/base.py:Component.get_correlation"]}
{"id": "C20", "title": "The L-mean equals the mean", "statement": "get_l_mean(w) = get_mean(w) for the variables t, v, z and every conditioner.", "quantifier": "all one-variable strings in t,v,z, all grids with centres at edge midpoints, all densities", "why_tests_cant": "summation identity for all sizes", "anchors": ["popkinmocks/components/base.py:Component.get_l_moment", "popkinmocks/components/base.py:Component.get_l_mean"]}
{"id": "C21", "title": "L-dispersion is non-negative and translation invariant", "statement": "get_l_dispersion(w) >= 0 for every distribution on an increasing grid; it and all higher L-moments do not change when all bin edges are shifted by a constant, and they scale with the grid.", "quantifier": "all grids and densities, all orders j>=2", "why_tests_cant": "inequality/invariance over all densities", "anchors": ["popkinmocks/components/base.py:Component.get_l_moment", "popkinmocks/components/base.py:Component.get_l_dispersion"]}
{"id": "C22", "title": "L-moments of x are rejected, and of a symmetric reference vanish at odd order", "statement": "get_l_moment('x...') always raises ValueError; get_l_moment_normal(j) is exactly 0 for odd j; hence excess odd L-moments equal normalised L-moments.", "quantifier": "all orders, all conditioners", "why_tests_cant": "infinitely many orders; symmetric cancellation over a quadrature of 99999 points", "anchors": ["popkinmocks/components/base.py:Component.get_l_moment", "popkinmocks/components/base.py:Component.get_l_moment_normal"]}
{"id": "C23", "title": "Datacube evaluation does not depend on batching", "statement": "evaluate_ybar(batch) gives the same datacube for batch 'none', 'column', 'spaxel'; every other batch value raises ValueError (after velocity validation).", "quantifier": "all grid sizes, densities and spectra", "why_tests_cant": "loops over all spaxels", "anchors": ["popkinmocks/components/base.py:Component.evaluate_ybar"]}
{"id": "C24", "title": "Flux conservation of the datacube", "statement": "For every spaxel, the sum of the datacube over the FFT length equals sum over t,z of (total SSP flux) * (probability of t,z in this spaxel): the convolution neither creates nor loses flux.", "quantifier": "all grid sizes, densities, spectra, interpolations that reproduce the endpoints", "why_tests_cant": "DC identity for all sizes", "anchors": ["popkinmocks/components/base.py:Component.evaluate_ybar"]}
{"id": "C25", "title": "Velocity-grid validation", "statement": "evaluate_ybar raises ValueError unless velocity bins are uniform with the SSP resolution, ascending and with v=0 on the central bin; a grid in which no bin centre is at v=0 (e.g. any even number of bins on a symmetric range, including the constructor defaults) raises IndexError.", "quantifier": "all velocity grids", "why_tests_cant": "all grid sizes and ranges", "anchors": ["popkinmocks/components/base.py:Component.evaluate_ybar"]}
{"id": "C26", "title": "Datacube is linear and is a convolution", "statement": "ybar is linear in the density; when the velocity grid has the FFT length, ybar is the circular convolution over log-wavelength of each SSP with its line-of-sight velocity distribution, summed over t,z; a density concentrated at v=0 gives the unshifted SSP sum.", "quantifier": "all densities, spectra, sizes", "why_tests_cant": "requires the DFT convolution theorem", "anchors": ["popkinmocks/components/base.py:Component.evaluate_ybar", "popkinmocks/components/mixture.py:Mixture.evaluate_ybar"]}
{"id": "C27", "title": "Mixture distributions are weighted sums", "statement": "Mixture.get_p(w) for marginals is sum_i weight_i p_i(w); for light_weighted the weights are proportional to weight_i * total light of component i; conditionals are joint/marginal of the mixture; with collapse_cmps=False the parts sum to the collapsed result for marginals.", "quantifier": "any number of components, all weights, all strings", "why_tests_cant": "number of components and weights unbounded", "anchors": ["popkinmocks/components/mixture.py:Mixture.get_log_p"]}
{"id": "C28", "title": "Mixture weights are validated", "statement": "Mixture(...) raises AssertionError iff the number of weights differs from the number of components, some weight is not strictly positive, or the weights do not sum to one within numpy's isclose tolerance; otherwise it is constructed, and normalised children with weights summing to one give a normalised mixture.", "quantifier": "all weight lists", "why_tests_cant": "infinite set of lists", "anchors": ["popkinmocks/components/mixture.py:Mixture.__init__"]}
{"id": "C29", "title": "Mixture means and central moments agree with its density", "statement": "Mixture.get_mean(w) and get_central_moment(w,j) equal the mean and central moments of Mixture.get_p(w) (wherever the density is defined).", "quantifier": "all strings, orders, numbers of components, weights", "why_tests_cant": "binomial recombination for every order", "anchors": ["popkinmocks/components/mixture.py:Mixture.get_mean", "popkinmocks/components/mixture.py:Mixture.get_central_moment"]}
{"id": "C30", "title": "Mixture datacube", "statement": "Mixture.evaluate_ybar sets ybar to sum_i weight_i ybar_i, voxel by voxel, whatever the number of components, and does not modify the children's datacubes; a child whose datacube has not been evaluated raises AttributeError.", "quantifier": "any number of components, weights, datacubes", "why_tests_cant": "unbounded number of components", "anchors": ["popkinmocks/components/mixture.py:Mixture.evaluate_ybar"]}
{"id": "C31", "title": "Star-formation history is a probability vector", "statement": "After set_p_t with unimodal beta parameters (or lmd/phi), get_p('t') sums to one over the age bins and bins carry the beta probability of the cumulative-mass interval; parameters giving a bimodal beta raise ValueError.", "quantifier": "all parameters, all age grids", "why_tests_cant": "continuum of parameters", "anchors": ["popkinmocks/components/parametric.py:ParametricComponent.set_p_t"]}
{"id": "C32", "title": "Parametric marginals come from one factorised joint", "statement": "For a parametric component all 15 marginals, for both weightings, equal the sums of p(t)p(x|t)p(v|t,x)p(z|t,x) [times L(t,z)] over the other variables; distributions containing v use the velocity distribution truncated to the grid.", "quantifier": "15 marginals, both weightings, all sizes", "why_tests_cant": "hand-written einsum-like code for each of 15 cases", "anchors": ["popkinmocks/components/parametric.py:ParametricComponent._get_log_p_t", "popkinmocks/components/parametric.py:ParametricComponent._get_log_p_tvxz"]}
{"id": "C33", "title": "Parametric velocity distribution is Gaussian per bin", "statement": "p(v|t,x) in a velocity bin is Phi(upper)-Phi(lower) for the Gaussian of mean mu_v(t,x), sigma_v(t,x); bins sum to the probability of the velocity range, never more than one.", "quantifier": "all mu, sigma>0, all grids", "why_tests_cant": "continuum", "anchors": ["popkinmocks/components/parametric.py:ParametricComponent._get_log_p_v_tx"]}
{"id": "C34", "title": "Analytic velocity moments", "statement": "For a parametric component get_mean('v_...') and get_central_moment('v_...',j) are the moments of the (untruncated) mixture of Gaussians: binomial expansion in (mean shift, sigma), weights p(t,x|...) ; odd central moments about own mean are zero and even ones are (j-1)!! sigma^j.", "quantifier": "all orders j, all conditioners, both weightings", "why_tests_cant": "every order", "anchors": ["popkinmocks/components/parametric.py:ParametricComponent.get_noncentral_moment_v_x", "popkinmocks/components/parametric.py:ParametricComponent.__get_noncentral_moment_v__", "popkinmocks/components/parametric.py:ParametricComponent.get_mean_v_x"]}
{"id": "C35", "title": "Chemical evolution gives probability vectors", "statement": "p(z|t,x) sums to one over metallicity for every age and depletion time-scale, and does not depend on position when the depletion time-scale does not; interpolated enrichment parameters stay inside the tabulated range.", "quantifier": "all t_dep fields, all grids", "why_tests_cant": "continuum", "anchors": ["popkinmocks/components/parametric.py:ParametricComponent.evaluate_chemical_enrichment_model", "popkinmocks/components/parametric.py:ParametricComponent._get_log_p_z_tx", "popkinmocks/components/parametric.py:ParametricComponent.get_z_interpolation_grid"]}
{"id": "C36", "title": "Age interpolation stays between its end points", "statement": "Quantities declared by (young, old) limits are between the two limits at every age, equal to them at the youngest/oldest age with non-negligible mass, and monotone in age.", "quantifier": "all limits, all age grids", "why_tests_cant": "continuum", "anchors": ["popkinmocks/components/parametric.py:ParametricComponent.linear_interpolate_t"]}
{"id": "C37", "title": "Growing disk fields respect their limits", "statement": "set_p_x_t gives p(x|t) summing to one for each age, set_t_dep gives depletion times between the in and out values, set_sig_v gives positive dispersions between their in/out values, set_mu_v gives |mu_v| <= |vmax| with equality on the major axis at rmax.", "quantifier": "all parameters, all grids, all pixels", "why_tests_cant": "continuum of parameters", "anchors": ["popkinmocks/components/growing_disk.py:GrowingDisk.set_p_x_t", "popkinmocks/components/growing_disk.py:GrowingDisk.set_t_dep", "popkinmocks/components/growing_disk.py:GrowingDisk.set_mu_v", "popkinmocks/components/growing_disk.py:GrowingDisk.set_sig_v"]}
{"id": "C38", "title": "Streams are age independent and bounded", "statement": "Stream p(x|t) sums to one over the pixels and is the same for all ages; the mean velocity interpolates linearly in angle between its two limits, equals them at the two ends of the stream whichever way round the angles are given, and never leaves them; angle limits outside [-pi,pi] are rejected with AssertionError.", "quantifier": "all parameters and pixels", "why_tests_cant": "continuum", "anchors": ["popkinmocks/components/stream.py:Stream.set_p_x_t", "popkinmocks/components/stream.py:Stream.set_mu_v"]}
{"id": "C39", "title": "Particles become a normalised histogram", "statement": "FromParticle stores the histogram of the particles: every bin probability is the mass fraction (of in-range particles) inside it, bins half-open except the last, so probabilities sum to one when some particle is in range, do not depend on particle order, nor on the overall mass scale; out of range particles are ignored and counted.", "quantifier": "all particle lists", "why_tests_cant": "unbounded lists and positions, permutations", "anchors": ["popkinmocks/components/particle.py:FromParticle.__init__"]}
{"id": "C40", "title": "Noise levels", "statement": "ConstantSNR sigma = ybar/snr so that ybar/sigma = snr everywhere; ShotNoise has signal-to-noise equal to snr at the brightest voxel, sqrt-scaling elsewhere, never above it and its sigma is never below that of ConstantSNR; negative noise is never produced silently.", "quantifier": "all datacubes with positive flux, all snr>0", "why_tests_cant": "every datacube", "anchors": ["popkinmocks/noise.py:ConstantSNR.get_sigma", "popkinmocks/noise.py:ShotNoise.get_sigma"]}
{"id": "C41", "title": "Noisy data is signal plus noise and leaves the signal untouched", "statement": "get_noisy_data(snr) returns ybar + sigma*standard-normal draws with the shape of ybar, and the stored datacube is unchanged after any sequence of noise calls.", "quantifier": "all draws, all call histories", "why_tests_cant": "histories are unbounded", "anchors": ["popkinmocks/noise.py:Noise.get_noisy_data", "popkinmocks/noise.py:Diagonal.sample"]}
{"id": "C42", "title": "Rebinning the SSP grid conserves flux and covers the grid", "statement": "age_rebin/z_rebin replace every group of consecutive bins by one bin whose edges are the outer edges and whose spectrum is the width-weighted average of the spectra in the group (so that sum of spectrum*dt*dz is conserved), groups partition the original bins, rebin=1 is the identity, and the number of bins is ceil(n/rebin).", "quantifier": "all grids and rebin factors", "why_tests_cant": "all sizes and factors", "anchors": ["popkinmocks/model_grids.py:milesSSPs._rebin_par_grid"]}
{"id": "C43", "title": "SSP parameter bins are a partition", "statement": "_get_par_edge_lims places every tabulated age/metallicity strictly inside its own bin and bins are increasing and adjacent.", "quantifier": "all increasing tabulated values", "why_tests_cant": "continuum", "anchors": ["popkinmocks/model_grids.py:milesSSPs._get_par_edge_lims"]}
{"id": "C44", "title": "get_ssp returns the spectrum of the requested bin", "statement": "get_ssp(i) returns the spectrum in column i together with the age and metallicity of the bin that spectrum belongs to, for every column; any spacing other than 'wavelength'/'log-wavelength' raises ValueError.", "quantifier": "all grids and queries", "why_tests_cant": "all sizes", "anchors": ["popkinmocks/model_grids.py:milesSSPs.get_ssp"]}
{"id": "C45", "title": "File names determine age and metallicity", "statement": "split_modfiles recovers exactly the metallicity and age that join_modfiles wrote into the file name, for all names of the documented form, both signs of metallicity.", "quantifier": "all metallicity/age digit strings", "why_tests_cant": "infinitely many names", "anchors": ["popkinmocks/read_miles.py:milesSSPs.split_modfiles", "popkinmocks/read_miles.py:milesSSPs.join_modfiles"]}
{"id": "C46", "title": "Age/metallicity limits are inclusive filters", "statement": "After filtering exactly the files with age and metallicity in the closed ranges remain, in the same order; the completeness check fails iff some (age, metallicity) pair is missing, so afterwards the columns are a full grid with column iz*nt+it.", "quantifier": "all file lists and limits", "why_tests_cant": "all lists", "anchors": ["popkinmocks/read_miles.py:milesSSPs.filter_age_metallicity_limits", "popkinmocks/read_miles.py:milesSSPs.check_age_metallicity_grid"]}
{"id": "C47", "title": "Wavelength truncation keeps spectra aligned", "statement": "truncate_wavelengths keeps exactly the rows with lmd_min <= lmd <= lmd_max, in order, for every spectrum.", "quantifier": "all wavelength arrays and limits", "why_tests_cant": "all sizes", "anchors": ["popkinmocks/read_miles.py:milesSSPs.truncate_wavelengths"]}
{"id": "C48", "title": "Queries never change a component", "statement": "Any sequence of get_p/get_log_p/moment calls leaves the stored density, cube and bin widths unchanged, so results do not depend on the query history, even though results are updated in place internally.", "quantifier": "all call histories", "why_tests_cant": "unbounded histories, aliasing", "anchors": ["popkinmocks/components/base.py:Component._get_log_p_tvxz", "popkinmocks/components/base.py:Component._get_log_p_t"]}
{"id": "C49", "title": "Parametric set-up protocol", "statement": "Querying a parametric component before its setters ran raises AttributeError; after all setters in the documented order all queries succeed; re-running an early setter without the later ones leaves later fields as they were.", "quantifier": "all setter sequences", "why_tests_cant": "all histories", "anchors": ["popkinmocks/components/parametric.py:ParametricComponent.__init__", "popkinmocks/components/parametric.py:ParametricComponent.set_p_t"]}
{"id": "C50", "title": "Cubes sharing one SSP object", "statement": "Constructing a second cube on the same SSP object with another velocity resolution changes the resampled spectra used by the first: the first cube's datacube evaluation raises ValueError instead of silently using the wrong resolution (base components).", "quantifier": "all histories of cube constructions", "why_tests_cant": "histories", "anchors": ["popkinmocks/ifu_cube.py:IFUCube.__init__", "popkinmocks/components/base.py:Component.evaluate_ybar"]}
{"id": "C51", "title": "Saving puts the file where asked", "statement": "dill_dump(fname, direc) creates the directory direc if it is missing and writes the component to the file whose name is direc followed by fname, which is fname inside direc if direc ends with a slash; every other file and directory is unchanged, whatever the outcome and even if the call is interrupted; a saved file keeps its contents during all later saves to other files; errors (missing parent directories, direc is a file, the file is a directory, no direc) are reported and change nothing.", "quantifier": "all file systems, directory and file names, component contents, interruption points and histories of saves", "why_tests_cant": "unbounded histories, all crash points and file system states", "anchors": ["popkinmocks/components/base.py:Component.dill_dump", "popkinmocks/components/base.py:Component.save_numpy"]}
{"id": "C52", "title": "Component frame is a rigid rotation", "statement": "Rotated coordinates of a component (rotation, center) preserve distances and map the center to the origin; rotating by theta then evaluating is the inverse rotation.", "quantifier": "all angles, all centres, all pixels", "why_tests_cant": "continuum", "anchors": ["popkinmocks/components/parametric.py:ParametricComponent.__init__"]}
{"id": "C53", "title": "Images use the right axes", "statement": "imshow(img, view) draws with extents of the two viewed variables and does not change the cube.", "quantifier": "all views, all histories", "why_tests_cant": "histories with aliasing", "anchors": ["popkinmocks/ifu_cube.py:IFUCube.imshow", "popkinmocks/ifu_cube.py:IFUCube._get_image_extent"]}
{"id": "C54", "title": "The SSP object gives cubes a proper grid and summed light weights", "statement": "A milesSSPs object built from a full grid of spectra, with any rebin factors, has non-empty, increasing, adjacent age and metallicity bins with matching centres and widths, and light weights L(t,z) equal to the sum over wavelength of the spectrum of that bin; so everything proved about cubes applies to it.", "quantifier": "all tables of ages, metallicities and spectra, all rebin factors", "why_tests_cant": "all sizes and values", "anchors": ["popkinmocks/model_grids.py:milesSSPs.__init__", "popkinmocks/model_grids.py:milesSSPs.get_light_weights"]}
{"id": "C55", "title": "Thinning keeps every k-th age and metallicity", "statement": "With thin_age=a and thin_z=b the reader keeps exactly the files whose age is number 0, a, 2a, .. of the sorted distinct ages and whose metallicity is number 0, b, 2b, ..; thinning by one keeps all; a full grid stays a full grid; a step of zero raises ValueError.", "quantifier": "all file lists and steps", "why_tests_cant": "all lists", "anchors": ["popkinmocks/read_miles.py:milesSSPs.thin_model_grid"]}
{"id": "C56", "title": "From a directory of files to a proper SSP object", "statement": "If the files inside the limits form a full age-metallicity grid without repeated pairs and hold spectra, milesSSPs(..) succeeds; the spectrum of each age and metallicity is the one in the file with that age and metallicity, cut to the wavelength range; and the object gives cubes a proper grid and summed light weights for all rebin factors.", "quantifier": "all directories, limits, wavelength ranges and rebin factors", "why_tests_cant": "all directories", "anchors": ["popkinmocks/model_grids.py:milesSSPs.__init__", "popkinmocks/read_miles.py:milesSSPs.__init__", "popkinmocks/read_miles.py:milesSSPs.read_spectra"]}
{"id": "C57", "title": "Pixel binning sums adjacent pixels", "statement": "bin_pixels(k) replaces wavelengths and spectra by sums of k adjacent pixels, dropping the remainder.", "quantifier": "all sizes and bin sizes", "why_tests_cant": "all sizes", "anchors": ["popkinmocks/read_miles.py:milesSSPs.bin_pixels"]}
{"id": "C58", "title": "reset undoes truncation and binning", "statement": "After any history of truncate_wavelengths and bin_pixels calls, failed ones included, reset restores wavelengths and spectra as after construction, if the files have not changed.", "quantifier": "all histories", "why_tests_cant": "unbounded histories", "anchors": ["popkinmocks/read_miles.py:milesSSPs.reset"]}
{"id": "C59", "title": "Resampled spectra are on a logarithmic grid with one pixel per velocity bin", "statement": "Constructing a cube resamples the SSPs at wavelengths evenly spaced in logarithm, dv/c apart with dv the width of the cube's velocity bins, starting at the smallest wavelength and covering the tabulated range; neighbouring pixels have wavelength ratio exp(dv/c); pixels on tabulated wavelengths hold the tabulated spectra; construction succeeds exactly if there are enough distinct wavelengths; without velocity extent nothing is constructed or changed.", "quantifier": "all SSP grids, all cube arguments", "why_tests_cant": "all resolutions, wavelength tables", "anchors": ["popkinmocks/model_grids.py:milesSSPs._logarithmically_resample", "popkinmocks/ifu_cube.py:IFUCube.__init__"]}
{"id": "C60", "title": "Ticks are where the values are", "statement": "On images and discrete plots, which show the bins of age and metallicity as equal parts of the unit interval, set_tick_positions keeps exactly the requested values between the outermost edges and places each tick in the part of the bin that holds its value; after construction with rebinning as well.", "quantifier": "all SSP objects, requested ticks, rebin factors", "why_tests_cant": "all grids and ticks", "anchors": ["popkinmocks/model_grids.py:milesSSPs.set_tick_positions", "popkinmocks/model_grids.py:milesSSPs.__init__"]}
{"id": "C61", "title": "Curves are drawn against the right coordinate", "statement": "cube.plot(var, arr) draws arr against the bin centres of var, with discrete spacing against equally spaced points that lie in the parts of the unit interval of their bins; plot_spectrum draws against the wavelengths if the array is as long as these, against the resampled wavelengths if it is as long as those; every other spacing or length raises.", "quantifier": "all cubes, variables, arrays", "why_tests_cant": "all sizes", "anchors": ["popkinmocks/ifu_cube.py:IFUCube.plot", "popkinmocks/ifu_cube.py:IFUCube.plot_spectrum"]}
{"id": "C62", "title": "The archive holds the density with axes position, velocity, metallicity, age", "statement": "save_numpy of an evaluated mixture writes the archive fname.npz in direc holding the mixture's density p(x1,x2,v,z,t), the resampled spectra, the evaluated cube and the bin edges, and changes nothing else; an unevaluated mixture raises AttributeError; other components cannot be saved this way (TypeError).", "quantifier": "all mixtures of plain components, file systems and names", "why_tests_cant": "all densities and file systems", "anchors": ["popkinmocks/components/base.py:Component.save_numpy"]}
{"id": "C63", "title": "The datacube of a parametric component is the convolution of the spectra with its velocity distribution", "statement": "evaluate_ybar of a parametric component gives, in every pixel, the sum over age and metallicity of p(t,x,z) times the integral over all velocities of the band-limited SSP spectrum shifted by v/dv pixels against the normal distribution p(v|t,x); 'none', 'column' and 'spaxel' batching agree and any other value raises ValueError; the flux of a spaxel is the sum of SSP fluxes weighted by p(t,x,z); adding j pixels' worth of velocity everywhere shifts every spectrum circularly by j pixels.", "quantifier": "all parametric components, SSP spectra, transform lengths, velocity resolutions and pixels", "why_tests_cant": "ranges over all spectra, velocity fields and transform lengths; an integral over all velocities cannot be evaluated by a test, and a wrong frequency scale only shows for odd lengths", "anchors": ["popkinmocks/components/parametric.py:ParametricComponent.evaluate_ybar"]}
{"id": "C64", "title": "Queries never change a parametric component; answers depend only on the parameters last set", "statement": "After any history of queries, parameter settings and overwritten arrays, every query of a parametric component has the outcome it has for the parameters now in memory and the original cube; the cube never changes, and the parameters are those last set as long as no answer of get_mean('v_tx') or get_mean('v_txz') is overwritten. A query or setting changes no array the user holds. Every answer is an array of its own, except that those two answers are the component's own array of mean velocities: overwriting one sets the mean velocity.", "quantifier": "all parametric components, histories of queries, settings and overwritings of any length, and final queries", "why_tests_cant": "ranges over all histories; an aliasing bug only shows for particular sequences of queries followed by particular edits", "anchors": ["popkinmocks/components/parametric.py:ParametricComponent", "popkinmocks/components/base.py:Component"]}
{"id": "C65", "title": "Mixtures of plain and parametric components: every distribution is that of the union of the members' stars", "statement": "For a mixture of any number of plain and parametric components, get_p of each of the 15 marginals and 50 conditionals, mass or light weighted, as probability or density, is the marginal or conditional distribution of the union of the members' stars with the given weights (conditionals nan exactly where there are no stars). Marginals are the weighted sums of what the members' own get_p return, with the weights for mass weighting and the members' shares of the light for light weighting; with collapse_cmps=False row i is the contribution of member i, and rows add up to the collapsed answer. Distributions with the velocity count the stars in the velocity range only, the others all stars.", "quantifier": "all mixtures of any number and kinds of plain and parametric members on cubes with the same bins, all weights, distribution strings, weightings", "why_tests_cant": "ranges over all members, weights and grids; a wrong normalisation for light weighting only shows if members have different fractions of stars outside the velocity range", "anchors": ["popkinmocks/components/mixture.py:Mixture.get_log_p", "popkinmocks/components/mixture.py:Mixture.get_p", "popkinmocks/components/parametric.py:ParametricComponent"]}
{"id": "C66", "title": "Mixtures of plain and parametric components: means and central moments are those of the union of the members' stars", "statement": "For a mixture of plain and parametric components get_mean(w) of each of the 32 one-variable strings, mass or light weighted, is the mean of the union of the members' stars given the conditioners (normal velocities of parametric members are not confined to the velocity range), and get_central_moment(w, j) is its central moment of order j about that mean, wherever the members have stars.", "quantifier": "all mixtures of any number and kinds of plain and parametric members on cubes with the same bins, all weights, one-variable strings, orders, weightings, cells where all members have stars", "why_tests_cant": "ranges over all members, weights, grids and orders; members normalise light in different ways and use the centres they are given differently, so that small errors appear for some strings only", "anchors": ["popkinmocks/components/mixture.py:Mixture.get_mean", "popkinmocks/components/mixture.py:Mixture.get_central_moment", "popkinmocks/components/mixture.py:Mixture._get_light_reweightings", "popkinmocks/components/parametric.py:ParametricComponent.get_noncentral_moment"]}
{"id": "C67", "title": "Mixtures over any history: queries change nothing, weights are fixed, members are live, answers are new arrays", "statement": "Take components (plain and parametric), lists of them, and mixtures built from such lists, members possibly shared between mixtures. After any sequence of queries to components and mixtures, setting of parameters, evaluations of data cubes, constructions of lists and mixtures, replaced list entries, and edits of arrays that the user made or was given as answers, every query has the outcome it has for freshly built objects with the parameters set last: queries change nothing, a mixture keeps the weights that the array contained at construction, its members are seen as they are now, its data cube is the weighted sum of those of its members at the time of evaluate_ybar. No query, setter or evaluation changes an array that the user holds. Answers of mixtures, and their data cubes, are new arrays sharing memory with nothing.", "quantifier": "all numbers of components, lists and mixtures, all histories of any length, all queries and arguments, successful or raising, all array contents", "why_tests_cant": "ranges over all histories and all ways in which components are shared; one in-place operation on a member's array corrupts later answers only", "anchors": ["popkinmocks/components/mixture.py:Mixture.__init__", "popkinmocks/components/mixture.py:Mixture.evaluate_ybar", "popkinmocks/components/mixture.py:Mixture.get_log_p", "popkinmocks/components/mixture.py:Mixture.get_p", "popkinmocks/components/mixture.py:Mixture.get_mean", "popkinmocks/components/mixture.py:Mixture.get_central_moment"]}
{"id": "C68", "title": "Parametric components: variances, skewness, kurtosis, covariances, correlations and L-moments are those of the stars", "statement": "For a parametric component whose setters have been called, get_variance, get_dispersion, get_skewness, get_kurtosis and get_excess_kurtosis of every quantity given any conditioners, mass or light weighted, are the variance, ... of the component's stars (normal velocities not confined to the velocity range): variances are not negative and equal mean square minus squared mean, kurtosis is at least 1 + skewness^2. get_covariance and get_correlation are the covariance and Pearson's correlation of the stars, so correlations lie between -1 and 1. get_l_moment of age, velocity and metallicity are Hosking's L-moments of the stars' distribution over the bins, so the L-mean is the mean.", "quantifier": "all parametric components, grids, one- and two-variable strings, weightings, orders, cells with stars", "why_tests_cant": "ranges over all components and grids; moments of velocity are analytic while distributions are binned and truncated, so that mixed quantities go wrong only for some velocity fields", "anchors": ["popkinmocks/components/base.py:Component.get_variance", "popkinmocks/components/base.py:Component.get_covariance", "popkinmocks/components/base.py:Component.get_correlation", "popkinmocks/components/base.py:Component.get_l_moment", "popkinmocks/components/parametric.py:ParametricComponent.get_central_moment"]}
{"id": "C69", "title": "Mixtures of plain and parametric components: variances, skewness, kurtosis, covariances, correlations and L-moments are those of the union of the members' stars", "statement": "For a mixture of plain and parametric components, get_variance, get_dispersion, get_skewness, get_kurtosis, get_excess_kurtosis, get_covariance, get_correlation and get_l_moment, mass or light weighted, are the variance, ..., covariance, Pearson's correlation and L-moments of the union of the members' stars given the conditioners, wherever the members have stars; correlations lie between -1 and 1 and the L-mean is the mean.", "quantifier": "all mixtures of any number and kinds of plain and parametric members on cubes with the same bins, all weights, one- and two-variable strings, weightings, orders, cells where all members have stars", "why_tests_cant": "ranges over all members, weights and grids; moments combine analytic and binned answers of the members", "anchors": ["popkinmocks/components/mixture.py:Mixture.get_mean", "popkinmocks/components/mixture.py:Mixture.get_central_moment", "popkinmocks/components/mixture.py:Mixture.get_p", "popkinmocks/components/base.py:Component.get_covariance", "popkinmocks/components/base.py:Component.get_correlation", "popkinmocks/components/base.py:Component.get_l_moment"]}
{"id": "C70", "title": "The shipped SSP library gives a usable grid, and everything built on it is well defined", "statement": "With the library of the repository (636 files: 12 metallicities times 53 ages) the constructor milesSSPs succeeds for all limits that keep at least two ages and two metallicities, all wavelength ranges of the library and all rebin factors, and for the default arguments. Each file is assigned to the bin of the age and metallicity in its name, bin edges increase, light weights are sums of the spectra over wavelength. Limits that keep fewer values raise IndexError. A cube of any size and a component with any density on top of it are accepted, and light-weighted distributions sum to one.", "quantifier": "all limits, wavelength ranges, rebin factors, directory orders, cubes and densities; all positive spectra in the shipped files", "why_tests_cant": "ranges over all limits and listing orders of the directory; the chain from the files to an answer passes through every layer of the package", "anchors": ["popkinmocks/model_grids.py:milesSSPs.__init__", "popkinmocks/read_miles.py:milesSSPs", "popkinmocks/ifu_cube.py:IFUCube.__init__", "data/MILES_BASTI_CH_baseFe"]}
{"id": "C71", "title": "The grid of SSP parameters lists every allowed cell once, in order, for any number of parameters and any mask", "statement": "A grid with any number of parameters is built from the numbers of bins and the limits: each axis is cut into equal bins; pars and par_idx have one column for each cell that the mask function does not leave out, in lexicographic order, with the centre and the indices of the cell; p is the number of columns; the wavelengths are evenly spaced and delta_lmd is their spacing. Wrong lengths, more than 100000 cells or a negative number of wavelengths raise ValueError, an exception of the mask function is passed on. For milesSSPs column i*nt+j is metallicity i and age j.", "quantifier": "all numbers of parameters, bins, limits, masks and wavelengths", "why_tests_cant": "ranges over all dimensions and mask functions; the order of columns decides which spectrum belongs to which parameters", "anchors": ["popkinmocks/model_grids.py:modelGrid.__init__", "popkinmocks/model_grids.py:modelGrid._check_par_input", "popkinmocks/model_grids.py:modelGrid._get_par_grid", "popkinmocks/read_miles.py:milesSSPs.list_mod_directories"]}
{"id": "C72", "title": "L-skewness, L-kurtosis and all normalised L-moments are L-moments in units of the L-dispersion", "statement": "get_normalised_l_moment, get_l_skewness and get_l_kurtosis return the L-moment divided by the L-dispersion of the distribution get_p returns. The L-dispersion of a distribution is positive, so they are numbers wherever there are stars. They do not depend on the units of the axis, vanish at odd orders for distributions symmetric about zero, and lie between -1 and 1 (Hosking 1990). Excess L-moments subtract the value of the normal law.", "quantifier": "all plain and parametric components and mixtures, quantities t, v, z, conditioners, weightings, orders, cells with stars", "why_tests_cant": "ranges over all distributions and grids; inequalities and invariances", "anchors": ["popkinmocks/components/base.py:Component.get_normalised_l_moment", "popkinmocks/components/base.py:Component.get_l_skewness", "popkinmocks/components/base.py:Component.get_l_kurtosis", "popkinmocks/components/base.py:Component.get_excess_l_moment"]}
{"id": "C73", "title": "A component rebuilt from the table get_log_p('tvxz') of another answers every query alike", "statement": "Component(cube, log_p_tvxz=other.get_log_p('tvxz')) accepts the table of any component or mixture, and returns the same distributions, means, central moments and datacube as the original.", "quantifier": "all mixtures of plain components, all parametric components and mixtures of both; all 65 distribution strings, weightings, moments and cells", "why_tests_cant": "ranges over all components; equality of two independent code paths (weighted sums over members against one table)", "anchors": ["popkinmocks/components/base.py:Component.__init__", "popkinmocks/components/base.py:Component.get_log_p", "popkinmocks/components/mixture.py:Mixture.get_log_p", "popkinmocks/components/mixture.py:Mixture.get_mean", "popkinmocks/components/mixture.py:Mixture.evaluate_ybar", "popkinmocks/components/parametric.py:ParametricComponent.get_log_p_tvxz"]}
{"id": "C74", "title": "A mixture depends only on the total weight of each component", "statement": "Mixtures in which every component has the same total weight return the same distributions, means, central moments and datacubes: the order of the members does not matter, and a component may be listed once with weight a+b or twice with weights a and b.", "quantifier": "all mixtures of plain and parametric components; all 65 distribution strings, both weightings, densities and probabilities, all orders of moments, all cells", "why_tests_cant": "ranges over all lists of members, permutations and ways to split a weight", "anchors": ["popkinmocks/components/mixture.py:Mixture.__init__", "popkinmocks/components/mixture.py:Mixture.get_p", "popkinmocks/components/mixture.py:Mixture.get_mean", "popkinmocks/components/mixture.py:Mixture.get_central_moment", "popkinmocks/components/mixture.py:Mixture.evaluate_ybar"]}
{"id": "C75", "title": "Components written by users answer every query from their joint distribution", "statement": "A subclass of Component that overrides the joint distribution gives all marginals, conditionals, means, central moments, covariances, L-moments and the datacube of that distribution. Conditionals and means it implements itself are used, as long as they are right nothing else changes; a conditional raising AttributeError or NotImplementedError is computed as joint over marginal with the same weighting, other exceptions reach the caller. The array given to the base constructor is then unused.", "quantifier": "all subclasses whose methods describe one nonnegative table, all subsets of further methods they implement, all 65 distribution strings, weightings, densities, orders and cells", "why_tests_cant": "ranges over all subclasses and distributions; no class in the package uses the NotImplementedError fallback", "anchors": ["popkinmocks/components/base.py:Component.get_log_p", "popkinmocks/components/base.py:Component._get_log_conditional_distribution", "popkinmocks/components/base.py:Component._get_log_p_t", "popkinmocks/components/base.py:Component.get_mean", "popkinmocks/components/base.py:Component.evaluate_ybar"]}
{"id": "C76", "title": "Distributions, means and dispersions of components made from particles are those of the particles", "statement": "For a component made from star particles, each entry of each marginal is the fraction of the mass (or light) of the particles in range which lie in those bins; each entry of each conditional is the fraction among the particles meeting the condition, nan if there are none. Mean and dispersion of age, velocity, position or metallicity, global or conditional, differ from the weighted mean and standard deviation of the particles' own values by at most half the widest bin.", "quantifier": "all lists of particles with non-negative masses and some mass in range (finite, infinite or nan coordinates), all cubes, all distributions, weightings, quantities, conditions and cells", "why_tests_cant": "the bound must hold for all particle lists, grids and conditions, including uneven bins and particles on edges", "anchors": ["popkinmocks/components/particle.py:FromParticle.__init__", "popkinmocks/components/base.py:Component.get_p", "popkinmocks/components/base.py:Component.get_mean", "popkinmocks/components/base.py:Component.get_dispersion"]}
{"id": "C77", "title": "Joining lists of particles is mixing their components", "statement": "A mixture of components made from several lists of particles, with weights proportional to the masses in range, answers like one component made from the joined list: all distributions by mass and light; means and central moments in bins where every list has particles; covariances and L-moments if all bins have particles of every list; the datacube.", "quantifier": "all non-empty lists of particle lists with non-negative masses and some mass in range each, all cubes and spectra, all distribution strings, weightings, densities, orders and cells", "why_tests_cant": "ranges over all partitions of all particle lists; two constructions, histogram and weighted sum of logarithms, must agree everywhere", "anchors": ["popkinmocks/components/particle.py:FromParticle.__init__", "popkinmocks/components/mixture.py:Mixture.__init__", "popkinmocks/components/mixture.py:Mixture.get_log_p", "popkinmocks/components/mixture.py:Mixture.evaluate_ybar"]}
{"id": "C78", "title": "The law of the noise", "statement": "If the generator delivers independent standard normal numbers, every voxel of every noisy datacube has a normal distribution with the noise-free flux as mean; its standard deviation is flux/snr for constant signal-to-noise ratio, sqrt(brightest flux * flux)/snr for shot noise. All voxels of all noisy datacubes, from any number of calls of either kind on the same component, are independent. The expected chi-square of a noisy datacube is its number of voxels.", "quantifier": "all datacubes with non-negative flux, all finite sequences of calls with either noise model and any positive signal-to-noise ratios, all probability spaces carrying such draws", "why_tests_cant": "a distribution and an independence cannot be read off finitely many draws, and calls may come in any number and order", "anchors": ["popkinmocks/noise.py:Noise.get_noisy_data", "popkinmocks/noise.py:ConstantSNR.get_sigma", "popkinmocks/noise.py:ShotNoise.get_sigma", "popkinmocks/noise.py:Diagonal.sample"]}
{"id": "C79", "title": "Coarser grids sum the bins of finer ones", "statement": "A component made from particles on a cube whose bins are unions of bins of another cube has, in each bin, the sum of the probabilities of the fine bins in it: all marginal distributions, conditional distributions given variables with the same bins (nan together), by mass, and by light if light weights agree. With coarser spatial bins only, each spaxel of the datacube is the sum of the fine spaxels in it. The same particles are reported lost. Two cubes over the same ranges, one with multiples of the numbers of bins of the other, are such a pair.", "quantifier": "all lists of particles with non-negative masses and some mass in range, all pairs of nested grids with any number of bins and any block sizes, all distribution strings, all cells", "why_tests_cant": "ranges over all particle positions, including those on edges of bins and on the last edge, and all grids", "anchors": ["popkinmocks/components/particle.py:FromParticle.__init__", "popkinmocks/ifu_cube.py:IFUCube.__init__", "popkinmocks/components/base.py:Component.evaluate_ybar"]}
{"id": "C80", "title": "What a parametric component loses at the ends of the velocity range", "statement": "If the velocity range of the cube reaches k standard deviations beyond the mean velocity on both sides, for all ages and pixels of a parametric component, then get_p('v_tx') and get_p('v') sum over the velocity bins to at least 1 - 2 exp(-k^2/2) (and less than 1), every distribution with the velocity summed over the velocity bins is the distribution without it up to this fraction (by mass never more; by light up to the same fraction either way), and a component rebuilt from get_log_p('tvxz') has the same distributions without velocity up to this fraction. To lose less than delta, sqrt(2 log(2/delta)) standard deviations are enough; with five, less than one star in 100000 is lost.", "quantifier": "all parametric components with normalised ingredients on all proper grids, all k >= 0, all 8 strings with the velocity, both weightings, all cells, all delta > 0", "why_tests_cant": "Tests compare tables on one wide grid up to a tolerance; the tolerance that is right for every grid, dispersion and mean velocity is a tail bound over all of them.", "anchors": ["popkinmocks/components/parametric.py:ParametricComponent._get_log_p_v_tx", "popkinmocks/components/parametric.py:ParametricComponent._get_log_p_tvxz", "popkinmocks/components/base.py:Component.get_p", "popkinmocks/ifu_cube.py:IFUCube.__init__"]}
{"id": "C81", "title": "Full and half turns of parametric components", "statement": "A growing disk or a stream made with the angle rotation + 2 pi n is the one made with rotation: the same calls of setters raise the same exceptions or leave components which answer every query alike (get_p, get_log_p, get_mean, get_central_moment, get_covariance, get_l_moment, evaluate_ybar). A growing disk made with rotation + pi is the one made with rotation on which set_mu_v is called with the opposite sign of vmax.", "quantifier": "all cubes, centres, angles, whole numbers of turns, all lists of calls of the five setters with any arguments, valid or not, in any order, all queries", "why_tests_cant": "ranges over all angles, grids and histories of calls, including pixels at the centre of the disk and calls that raise", "anchors": ["popkinmocks/components/parametric.py:ParametricComponent.__init__", "popkinmocks/components/growing_disk.py:GrowingDisk.set_mu_v", "popkinmocks/components/growing_disk.py:GrowingDisk.set_p_x_t", "popkinmocks/components/growing_disk.py:GrowingDisk.set_t_dep", "popkinmocks/components/growing_disk.py:GrowingDisk.set_sig_v", "popkinmocks/components/stream.py:Stream.set_p_x_t", "popkinmocks/components/stream.py:Stream.set_mu_v"]}
{"id": "C82", "title": "Growing disks are symmetric about their centre", "statement": "On a cube whose pixels are symmetric about the centre of a growing disk, every distribution without the velocity (get_p, marginal or conditional, by mass or by light, density or not) is equal at opposite pixels; so is every distribution with the velocity, at opposite velocities, if the velocity bins are symmetric about 0. Wherever there are stars the mean velocity (given any variables) is opposite at opposite pixels and the j-th central moment of the velocity is multiplied by (-1)^j.", "quantifier": "all proper grids symmetric about the centre, all angles, all lists of valid calls of the five setters, in any order and with repetitions, that set everything; all 65 distribution strings, both weightings, all cells, all orders j", "why_tests_cant": "ranges over all angles, setter arguments, histories and grids; a test looks at one disk", "anchors": ["popkinmocks/components/growing_disk.py:GrowingDisk.set_p_x_t", "popkinmocks/components/growing_disk.py:GrowingDisk.set_t_dep", "popkinmocks/components/growing_disk.py:GrowingDisk.set_mu_v", "popkinmocks/components/growing_disk.py:GrowingDisk.set_sig_v", "popkinmocks/components/parametric.py:ParametricComponent.get_mean", "popkinmocks/components/base.py:Component.get_p"]}
{"id": "C83", "title": "The origin and the unit of sky coordinates do not matter", "statement": "Make a growing disk or a stream twice: once on a cube with some ranges of x1 and x2, and once on the cube with the ranges taken to other coordinates x1 -> a + k x1, x2 -> b + k x2 (k > 0), with the centre converted the same way and all lengths given to setters (core radii, radii of the rotation curve, radii and width of the track) multiplied by k. If the first history succeeds so does the second. Then all probabilities are equal, densities in position are divided by k^2, means of position are those in the new coordinates, central moments of order j of position are multiplied by k^j, covariances by k for each position in them, correlations and everything about age, metallicity and velocity (L-moments too) are unchanged, and the datacubes are equal.", "quantifier": "all proper grids, all k > 0, all origins, all centres and rotations, all lists of valid setter calls, in any order and with repetitions, that set everything; all 65 distribution strings, both weightings, all moment orders, all cells with stars, all three batching modes", "why_tests_cant": "ranges over all histories, grids, units and origins", "anchors": ["popkinmocks/components/parametric.py:ParametricComponent.__init__", "popkinmocks/components/growing_disk.py:GrowingDisk.set_p_x_t", "popkinmocks/components/growing_disk.py:GrowingDisk.set_t_dep", "popkinmocks/components/growing_disk.py:GrowingDisk.set_mu_v", "popkinmocks/components/growing_disk.py:GrowingDisk.set_sig_v", "popkinmocks/components/stream.py:Stream.set_p_x_t", "popkinmocks/components/stream.py:Stream.set_mu_v", "popkinmocks/components/parametric.py:ParametricComponent.evaluate_ybar", "popkinmocks/components/base.py:Component.get_covariance", "popkinmocks/components/base.py:Component.get_correlation", "popkinmocks/ifu_cube.py:IFUCube.__init__"]}
{"id": "C84", "title": "Which setter calls matter: the last one for each part, and what was set when it was made", "statement": "Two histories of setter calls on the same new growing disk that both succeed leave identical components if, for every part (ages, positions, enrichment, mean velocities, dispersions), they agree on the last call that sets it and, for positions, mean velocities and dispersions, on the last set_p_t made before that call; for streams the only such dependence is that of set_mu_v on the last set_p_x_t before it. Hence, after one set_p_t, the order of the other setters does not matter. Nothing is re-computed: a set_p_t made after the others changes get_p('x_t'), get_p('z_tx') and get_p('v_tx') in no entry, and there are arguments for which set_p_t before set_p_x_t and after it give different spatial distributions.", "quantifier": "all pairs of lists of setter calls, of any length, with any arguments, from any state (order theorem: all valid arguments, all permutations); all proper grids, centres, rotations", "why_tests_cant": "ranges over all pairs of histories of any length and all arguments", "anchors": ["popkinmocks/components/parametric.py:ParametricComponent.set_p_t", "popkinmocks/components/parametric.py:ParametricComponent.linear_interpolate_t", "popkinmocks/components/growing_disk.py:GrowingDisk.set_p_x_t", "popkinmocks/components/growing_disk.py:GrowingDisk.set_t_dep", "popkinmocks/components/growing_disk.py:GrowingDisk.set_mu_v", "popkinmocks/components/growing_disk.py:GrowingDisk.set_sig_v", "popkinmocks/components/stream.py:Stream.set_p_x_t", "popkinmocks/components/stream.py:Stream.set_mu_v"]}
{"id": "C85", "title": "Younger stars, and stars from gas that is used up faster, are richer in metals", "statement": "After set_t_dep, on cubes whose ages lie between 0 and 100 Gyr: of two populations of a parametric component, the one at least as young in a pixel whose depletion time is at most as long is at least as rich in metals: the ratio of the entries of get_p('z_tx') does not fall with metallicity, below every threshold of metallicity it has at most the same fraction of stars, and get_mean('z_tx') is not smaller. All of this is strict (given two metallicity bins) if it is younger, or if two tabulated depletion times lie between the two. Hence growing disks whose depletion time grows outwards have metallicities that fall with elliptical radius (and rise if it falls outwards), streams have one distribution per age, and at one age the order also holds for the light-weighted distributions.", "quantifier": "all proper grids with ages in [0, 100], all arrays of depletion times, all arguments of set_t_dep, all pairs of ages and pixels, all thresholds, all light weights", "why_tests_cant": "an inequality for all depletion times, ages and bins; rests on the variance of the enrichment model growing slower than the metallicity", "anchors": ["popkinmocks/components/parametric.py:ParametricComponent.get_z_interpolation_grid", "popkinmocks/components/parametric.py:ParametricComponent.evaluate_chemical_enrichment_model_base", "popkinmocks/components/parametric.py:ParametricComponent.set_p_z_tx", "popkinmocks/components/growing_disk.py:GrowingDisk.set_t_dep", "popkinmocks/components/stream.py:Stream.set_t_dep", "popkinmocks/components/base.py:Component.get_mean"]}
{"id": "C86", "title": "A greater phi makes an older population", "statement": "set_p_t called on the same component with two sets of valid parameters: if the second has no smaller lmd*phi and no greater lmd*(1-phi) (for instance the same lmd and a greater phi), its population is at least as old: the ratio of the entries of get_p('t') does not fall with age, below every age it has at most the same fraction of stars, get_mean('t') is not smaller, and the build-up window t_start, t_end it records begins and ends no earlier. All of this is strict if one of the two products differs (given two age bins, and quantiles inside (0,1)). If two components on one cube agree in get_p('x_t') and get_p('z_tx'), the order of their ages by mass carries over to the light-weighted get_p('t') and get_mean('t'); in particular when set_p_t is called again on a finished component.", "quantifier": "all proper grids, all valid parameters lmd, phi, cdf_start_end, all thresholds, all light weights, all components whose parts are set", "why_tests_cant": "an inequality between all pairs of beta distributions on all grids of ages, including densities that diverge at an end of the range", "anchors": ["popkinmocks/components/parametric.py:ParametricComponent.set_p_t", "popkinmocks/components/parametric.py:ParametricComponent.get_beta_a_b_from_lmd_phi", "popkinmocks/components/parametric.py:ParametricComponent._get_log_p_t", "popkinmocks/components/base.py:Component.get_mean"]}
{"id": "C87", "title": "Disks fall off outwards, and inside-out growth gives an age gradient", "statement": "After set_p_x_t on a growing disk with positive axis ratios and cores and non-negative slopes, the density get_p('x_t') of the stars of any one age does not grow with the elliptical radius of the pixel (strictly falls where the slope at that age is positive). With arguments that give the age the same axis ratio, a steeper slope and a smaller core make its stars more concentrated: a larger fraction within every radius. If the axis ratio is the same for all ages, the slope does not fall and the core does not grow with age, then older stars are more concentrated than younger ones, and in a component whose parts are all set get_p('t_x') and get_mean('t_x') fall outwards: of two pixels the one with smaller elliptical radius has no fewer stars above any age and no smaller mean age. The mean age falls strictly where the radius grows strictly, if some two populated ages differ in slope, or in core with positive slope; in particular after set_p_t with any valid parameters, if the slope strictly grows and two age bins are not on the same side of the window of build-up.", "quantifier": "all proper grids, centres, rotations, build-up windows, all arguments of set_p_x_t in the stated order, all pairs of pixels and ages, all radii, all histories of setter calls that leave the component complete", "why_tests_cant": "inequalities between all pairs of pixels, ages and argument values on all grids; a test sees a few maps", "anchors": ["popkinmocks/components/growing_disk.py:GrowingDisk.set_p_x_t", "popkinmocks/components/parametric.py:ParametricComponent.linear_interpolate_t", "popkinmocks/components/parametric.py:ParametricComponent.set_p_t", "popkinmocks/components/base.py:Component.get_mean"]}
{"id": "C88", "title": "Rotation curves, dispersion profiles, and faster or hotter disks", "statement": "After set_mu_v on a growing disk, along any ray from the centre the speed of the stars of one age rises up to the elliptical radius rmax of that age and falls beyond it, and all of them move the same way. Multiplying both limits of vmax by k multiplies every mean velocity of a complete component by k: get_mean of v given any variables, by mass or light, wherever there are stars. After set_sig_v the dispersion of each age goes monotonically from its inner to its outer limit as the elliptical radius grows, and is at the outer limit where the radius is no less than the distance of any pixel from the minor axis. Raising the inner and outer limits lowers no get_variance of v given any variables, by mass or light, and no band of velocity bins around the mean velocity of a pixel and age holds more stars in get_p('v_tx'); all of this strictly if the limits are raised strictly.", "quantifier": "all proper grids, centres, rotations and build-up windows, all valid arguments of set_mu_v and set_sig_v, all factors of either sign, all pairs of pixels on a ray, all ages, all conditioners of v, both weightings, all bands of velocity bins, all histories of setter calls that leave the component complete (for variances, with the double factorial of -1 equal to 1)", "why_tests_cant": "inequalities between all pairs of pixels and all argument values on all grids, and all conditional means and variances at once; a test sees a few maps", "anchors": ["popkinmocks/components/growing_disk.py:GrowingDisk.set_mu_v", "popkinmocks/components/growing_disk.py:GrowingDisk.set_sig_v", "popkinmocks/components/base.py:Component.get_mean", "popkinmocks/components/base.py:Component.get_variance", "popkinmocks/components/parametric.py:ParametricComponent._get_log_p_v_tx"]}
{"id": "C89", "title": "The relation between age and metallicity", "statement": "After set_t_dep the metal-poor stars of a component are older than its metal-rich ones. In a growing disk this holds in every pixel: for a lower metallicity bin the mass-weighted get_p('t_xz') is tilted to greater ages, has no more stars below any age, and get_mean('t_xz') is at least as great, and strictly greater if stars of two ages exist; after set_p_t they always do. In a stream it holds for all stars at once, in get_p('t_z') and get_mean('t_z'). If set_p_t is then called with a greater phi, the component is not only older but poorer in metals: in every pixel of a disk get_p('z_x') has strictly more stars below every metallicity inside the range and get_mean('z_x') is strictly lower, and so are get_p('z') and get_mean('z') of a stream.", "quantifier": "all proper grids of ages within 0 and 100 Gyr, all centres and rotations, all histories of setter calls that leave the component complete, all valid arguments of set_t_dep and set_p_t, all pixels, all pairs of metallicity bins, all pairs phi < phi'", "why_tests_cant": "inequalities between all pairs of bins, in all pixels, for all arguments and star formation histories; a test sees a few maps", "anchors": ["popkinmocks/components/growing_disk.py:GrowingDisk.set_t_dep", "popkinmocks/components/stream.py:Stream.set_t_dep", "popkinmocks/components/parametric.py:ParametricComponent.set_p_t", "popkinmocks/components/base.py:Component.get_p", "popkinmocks/components/base.py:Component.get_mean"]}
{"id": "C90", "title": "Groups of stars add up to all stars", "statement": "If the stars of a component are grouped by some variables b, get_mean of a quantity is the average of its conditional means get_mean(a_b) weighted by get_p(b); get_variance is the average of the conditional variances plus the variance of the conditional means; get_covariance obeys the same law. Hence the variances within groups are on average at most the variance of all stars, with equality only if the means of all groups with stars agree. This holds for plain components and all groups; for parametric components and mixtures for groups by age, pixel and metallicity (mixtures: if all members have stars in the groups where the mixture has). For parametric components and groups by velocity bins it never holds by mass: the groups miss the stars outside of the velocity range.", "quantifier": "all proper grids, all normalised tables, all parametric components that any history of setters leaves complete, all mixtures with positive weights, all quantities, all pairs of quantities, all valid conditioning strings, both weightings", "why_tests_cant": "an identity between five different queries that take different code paths (analytic moments, tables, mixtures), for all contents and all strings, including groups without stars where entries are nan", "anchors": ["popkinmocks/components/base.py:Component.get_p", "popkinmocks/components/base.py:Component.get_mean", "popkinmocks/components/base.py:Component.get_variance", "popkinmocks/components/base.py:Component.get_covariance", "popkinmocks/components/parametric.py:ParametricComponent.get_mean_v_tx", "popkinmocks/components/mixture.py:Mixture.get_mean"]}
{"id": "C91", "title": "Weighting by light favours the brighter stars", "statement": "If, among the stars that are asked about, light never grows with age, then with light_weighted=True get_p gives at least as much probability below every age as without, and get_mean gives an age that is not larger; it is smaller as soon as two populated ages differ in light. If light never falls with age it is the other way round; the same holds for metallicity. If all these stars are equally bright both weightings give the same distribution and mean. This holds for get_p and get_mean of t and z, of all stars or given any other variables, for plain and parametric components wherever there is light, and for mixtures given any variables other than velocity where all members have light.", "quantifier": "all proper grids, all light weights, all normalised tables, all parametric components that any history of setters leaves complete, all mixtures with positive weights, all valid strings with t or z before the underscore, all values of the conditioners", "why_tests_cant": "an order between two answers for all contents and all tables of light weights; a test checks numbers for one table", "anchors": ["popkinmocks/components/base.py:Component.get_p", "popkinmocks/components/base.py:Component.get_mean", "popkinmocks/components/base.py:Component.get_log_p", "popkinmocks/components/mixture.py:Mixture.get_p", "popkinmocks/components/mixture.py:Mixture.get_mean"]}
{"id": "C92", "title": "Moving and scaling the velocities of a component", "statement": "If the limits of Stream.set_mu_v are changed from l to a*l+b and the argument of Stream.set_sig_v from s to |a|*s, or the limits vmax_lims of GrowingDisk.set_mu_v are multiplied by a and the limits of GrowingDisk.set_sig_v by |a| (a not 0, possibly negative: b is a shift of the systemic velocity, a = -1 counter-rotation), then all distributions without the velocity stay the same; get_mean of the velocity, overall and given any variables, changes from u to a*u+b wherever there are stars; get_central_moment of order j is multiplied by a**j; and the probability get_p gives to a velocity bin is the one it gave before to the bin whose edges are mapped on it (densities divided by |a|), for all distributions with v, for both weightings; light-weighted ones up to one factor, which is 1 if all bins are mapped on bins.", "quantifier": "all proper grids, all light weights that are positive, all components that any history of valid setters leaves complete, all a other than 0 and all b, all valid arguments of the setters, all 15 marginals, all conditioners of v, all orders of moments", "why_tests_cant": "a relation between the answers of two components for all parameters and grids; a test compares numbers of a few", "anchors": ["popkinmocks/components/stream.py:Stream.set_mu_v", "popkinmocks/components/stream.py:Stream.set_sig_v", "popkinmocks/components/growing_disk.py:GrowingDisk.set_mu_v", "popkinmocks/components/growing_disk.py:GrowingDisk.set_sig_v", "popkinmocks/components/parametric.py:ParametricComponent._get_log_p_v_tx", "popkinmocks/components/parametric.py:ParametricComponent.get_mean_v"]}
{"id": "C93", "title": "Moments of mixtures about any centre", "statement": "For a mixture of plain and parametric components get_noncentral_moment(w, j, mu) is the expectation of (value - mu)**j over the union of the members' stars that have the values of the conditioners, for every array mu of centres of the right shape, mass- and light-weighted: also where some members have no stars, and nan exactly where the mixture has none. With mu = get_mean(w) of the same mixture it is get_central_moment(w, j).", "quantifier": "all mixtures (any number of members and weights) of plain and parametric components, all proper grids, all light weights, all orders j, all centres, all 32 strings of one variable with conditioners, both weightings", "why_tests_cant": "an identity for all members, weights, centres and conditioners; the inherited method is not tested on mixtures, and errors depend on where the velocities lie relative to the bins", "anchors": ["popkinmocks/components/base.py:Component.get_noncentral_moment", "popkinmocks/components/mixture.py:Mixture.get_p", "popkinmocks/components/mixture.py:Mixture.get_mean", "popkinmocks/components/mixture.py:Mixture.get_central_moment"]}
{"id": "C94", "title": "A stream described from its other end is the same stream", "statement": "theta_lims, mu_r_lims and mu_v_lims of a stream are values at its two ends, and which end is named first does not matter: if any history of valid setter calls makes a complete stream whose track is sampled at two points or more, then the same calls with the three pairs in the other order make a stream too, and both answer every query alike (get_p, means, moments of all orders, covariances, correlations, L-moments, datacubes). With nsmp = 1 only the first end counts.", "quantifier": "all proper grids, all histories of valid setter calls on a Stream with nsmp >= 2, all centres and rotations, all queries, both weightings", "why_tests_cant": "it relates two constructions for all parameters and histories; no test sets the limits in decreasing order, and the code treats the two orders by separate branches", "anchors": ["popkinmocks/components/stream.py:Stream.set_p_x_t", "popkinmocks/components/stream.py:Stream.set_mu_v"]}
{"id": "C95", "title": "A mixture of mixtures answers as the flat mixture of all components", "statement": "A mixture may be a member of another mixture, to any depth. It should then answer every query as the flat mixture of the components at the bottom, each with the product of the weights above it. This holds for the datacube and for mass-weighted means over all stars at any depth, and for mass-weighted central moments of ages, positions and metallicities over all stars at depth two. The full claim is false: every get_p and get_log_p raises AttributeError, light-weighted and conditional means and moments raise, central moments raise at depth three, and central moments of velocities at depth two are wrong.", "quantifier": "all proper grids, all trees of mixtures over plain and parametric components, all weights, all distributions, moments of all orders, all voxels", "why_tests_cant": "trees of any depth and width; no test nests mixtures, and the members inherit methods that read attributes a mixture does not have", "anchors": ["popkinmocks/components/mixture.py:Mixture.get_mean", "popkinmocks/components/mixture.py:Mixture.get_central_moment", "popkinmocks/components/mixture.py:Mixture.evaluate_ybar", "popkinmocks/components/mixture.py:Mixture.get_log_p", "popkinmocks/components/base.py:Component.get_noncentral_moment"]}
{"id": "C96", "title": "The unit of flux does not matter", "statement": "If all template spectra are multiplied by one positive factor s, then the light weights of the bins are multiplied by s, every mass- or light-weighted distribution, mean, central moment, covariance, correlation and L-moment of every plain component, parametric component and mixture stays the same wherever all components have stars, and every datacube is multiplied by s.", "quantifier": "all libraries, all proper grids, all factors s > 0, all components and mixtures, all distributions, orders and voxels, all batch modes", "why_tests_cant": "tests use one library in one unit; a light weight used where a share is meant shows only when the unit changes", "anchors": ["popkinmocks/model_grids.py:milesSSPs.get_light_weights", "popkinmocks/components/base.py:Component.get_log_p", "popkinmocks/components/base.py:Component.evaluate_ybar", "popkinmocks/components/parametric.py:ParametricComponent.evaluate_ybar", "popkinmocks/components/mixture.py:Mixture.get_log_p", "popkinmocks/components/mixture.py:Mixture.evaluate_ybar"]}
{"id": "C97", "title": "Conditional answers depend only on the stars that meet the condition", "statement": "Let two components, or two mixtures, on the same grid and with the same light weights have the same stars, up to one positive factor \u03ba, among those that meet a condition (in one pixel, of one age, ...) and any other stars elsewhere. Then all their distributions, means, central moments, covariances, correlations and L-moments given that condition are the same there, by mass and by light, and if the condition is a pixel the spectrum of the second in that pixel is \u03ba times that of the first. Proved in full for plain components and for all datacubes. False for light-weighted velocity distributions of parametric components and mixtures, given anything but age and position: they contain the fraction of all light that is in the velocity range of the grid, so they depend on the other stars too.", "quantifier": "all proper grids, all pairs of plain components, parametric components or mixtures, all conditions and bins, all factors \u03ba > 0, all orders, both weightings, all batch modes", "why_tests_cant": "tests look at one component; a normalisation or an index that mixes pixels or ages shows only when the other stars change", "anchors": ["popkinmocks/components/base.py:Component.get_log_p", "popkinmocks/components/base.py:Component.get_mean", "popkinmocks/components/base.py:Component.get_central_moment", "popkinmocks/components/base.py:Component.evaluate_ybar", "popkinmocks/components/parametric.py:ParametricComponent.evaluate_ybar", "popkinmocks/components/mixture.py:Mixture.get_log_p", "popkinmocks/components/mixture.py:Mixture.evaluate_ybar"]}
{"id": "C98", "title": "Among equally bright stars, weighting by light is weighting by mass", "statement": "Where all stars that meet a condition emit the same light per mass, every distribution, mean, central moment, covariance, correlation and L-moment given that condition is the same by light and by mass. Stars of one age and metallicity are equally bright in every library, so this holds for every condition that fixes age and metallicity. If all stars are equally bright and the total mass is 1 it holds for marginal distributions and unconditional moments too. Proved in full for plain components. For parametric components and mixtures: means and central moments of all variables; distributions, covariances and L-moments of all variables but the velocity, for which the claim is false of parametric components because light-weighted velocity distributions are divided by the light in the velocity range only.", "quantifier": "all proper grids and libraries, all plain and parametric components and mixtures, all conditions and bins where stars are equally bright, all orders", "why_tests_cant": "the two weightings are separate code paths; that they agree for every condition that fixes the brightness is a statement about all libraries and components", "anchors": ["popkinmocks/components/base.py:Component.get_log_p", "popkinmocks/components/base.py:Component.get_mean", "popkinmocks/components/base.py:Component.get_central_moment", "popkinmocks/components/base.py:Component.get_covariance", "popkinmocks/components/mixture.py:Mixture.get_log_p"]}
{"id": "C99", "title": "Given age and position, velocity and metallicity of a disk or stream are independent", "statement": "In a parametric component (growing disk or stream), among the stars of one age at one position: the distribution, mean, central moments and L-moments of metallicity given the velocity too are those not given it; the distribution, mean and central moments of velocity are the same for every metallicity; the joint distribution of velocity and metallicity is a product; their covariance is 0 and so is their correlation wherever metallicities differ. All this by mass and by light. By mass the distribution of velocity given the metallicity too is also the one returned when metallicity is not given.", "quantifier": "all proper grids, all parametric components on them, both weightings, densities and probabilities, all bins with stars, all orders", "why_tests_cant": "each of the answers comes from a different combination of joint and marginal arrays or a different method; that they agree in every bin of every component is a statement about all inputs", "anchors": ["popkinmocks/components/base.py:Component.get_log_p", "popkinmocks/components/base.py:Component.get_mean", "popkinmocks/components/base.py:Component.get_central_moment", "popkinmocks/components/base.py:Component.get_covariance", "popkinmocks/components/parametric.py:ParametricComponent"]}
{"id": "C100", "title": "What the template spectra contribute to the datacube", "statement": "The datacube is linear in the template spectra: with templates aS+bS' it is a times that with S plus b times that with S'. In a pixel only the templates of stars that are there matter: changing the templates of ages and metallicities without stars in the pixel does not change its spectrum. If the templates are constant in wavelength, so is the spectrum of every pixel, and it is the sum over ages and metallicities of template times mass, whatever the velocities. If all templates are equal, two plain components with the same distribution of velocity in a pixel have the same spectrum there, whatever their ages and metallicities; if templates do not depend on metallicity, neither does the datacube of a disk or stream with given ages and velocities.", "quantifier": "all proper grids with at least 6 velocity bins (plain components), all plain and parametric components, all template spectra and lengths, all coefficients, all three batch modes; linearity also for mixtures", "why_tests_cant": "a test fixes one library and one component; the statements compare all pairs of libraries and all components, in three code paths", "anchors": ["popkinmocks/components/base.py:Component.evaluate_ybar", "popkinmocks/components/parametric.py:ParametricComponent.evaluate_ybar", "popkinmocks/components/mixture.py:Mixture.evaluate_ybar"]}
{"id": "C101", "title": "Turning a component the other way gives its mirror image", "statement": "On a cube whose pixels are symmetric in y about the centre of a growing disk, the setter calls that make a disk with rotation phi also make one with rotation -phi, and the second is the mirror image of the first: every distribution, mean, central moment, covariance, correlation, L-moment and spectrum at a pixel of one is that of the other at the pixel on the other side of the centre line, velocities unchanged, y reflected. A disk with rotation 0 is its own mirror image. The same holds for streams if theta_lims change sign too and no pixel centre is exactly on the half line where angles jump from pi to -pi; a pixel there gets the velocity of the end of a track at positive angles, and that of the start in its mirror image.", "quantifier": "all proper grids symmetric in y about the centre, all rotations, all histories of valid setter calls that make a complete component, both weightings, all queries, bins with stars, orders, template spectra and batch modes", "why_tests_cant": "a statement about every rotation angle, every history of setter calls and every query; a test compares a few numbers of one pair of components", "anchors": ["popkinmocks/components/parametric.py:ParametricComponent.__init__", "popkinmocks/components/growing_disk.py:GrowingDisk.set_p_x_t", "popkinmocks/components/growing_disk.py:GrowingDisk.set_mu_v", "popkinmocks/components/stream.py:Stream.set_p_x_t", "popkinmocks/components/stream.py:Stream.set_mu_v"]}
{"id": "C102", "title": "A datacube summed over wavelength is the light-weighted image", "statement": "Summed over wavelength and divided by its total, the datacube of a component or mixture should be get_p('x', density=False, light_weighted=True). It is, if all templates of the library are multiples of one spectrum, and in general up to the ratio of the largest to the smallest factor by which resampling to the pixels of the cube changes the total of a template. It is false in general: the light weights are totals over the wavelengths of the library, the last of which is left out of the datacube, and a component can have light in a pixel of the image and no flux at all in its spectrum.", "quantifier": "all cubes and libraries, all plain components, parametric components and mixtures of any number of them, all pixels, all three batch modes", "why_tests_cant": "an identity between two independent computations for every density, library and pixel; real libraries violate it only slightly, so a test with a tolerance passes", "anchors": ["popkinmocks/components/base.py:Component.evaluate_ybar", "popkinmocks/components/base.py:Component.get_p", "popkinmocks/components/parametric.py:ParametricComponent.evaluate_ybar", "popkinmocks/components/mixture.py:Mixture.evaluate_ybar", "popkinmocks/model_grids.py:milesSSPs.get_light_weights", "popkinmocks/model_grids.py:milesSSPs._logarithmically_resample"]}
{"id": "C103", "title": "Fluxes lie between the smallest and the largest flux of the templates, so noise can be drawn", "statement": "Velocities only move flux between wavelengths: every flux of a pixel should lie between the smallest and the largest flux of the templates times the stars in the pixel, and templates without negative fluxes should give a datacube from which ConstantSNR and ShotNoise draw noise for every positive snr. True for plain components with as many velocity bins as wavelengths, and for mixtures if true for their members. For parametric components, bounds of the band-limited continuation of the templates are bounds of the fluxes, whatever the velocities, so noise can be drawn if the deviations of each template from a level add up to no more than that level. False in general: templates with a narrow line give negative fluxes if mean velocities are not whole pixels, and then get_noisy_data raises ValueError.", "quantifier": "all cubes, libraries, plain components, parametric components and mixtures, all batch modes, all velocities, all snr > 0, all random numbers", "why_tests_cant": "an inequality for every library, density and velocity; the failing cases need narrow lines and narrow velocity distributions, which smooth demonstration spectra do not have", "anchors": ["popkinmocks/components/base.py:Component.evaluate_ybar", "popkinmocks/components/parametric.py:ParametricComponent.evaluate_ybar", "popkinmocks/components/mixture.py:Mixture.evaluate_ybar", "popkinmocks/noise.py:Noise.get_noisy_data", "popkinmocks/noise.py:ConstantSNR.get_sigma", "popkinmocks/noise.py:ShotNoise.get_sigma"]}
{"id": "C104", "title": "The velocity bins of the cube matter only to distributions of velocity", "statement": "Make a growing disk or a stream by the same setter calls on two cubes that differ only in the range or the number of velocity bins. If the calls succeed on one cube they succeed on the other, and every answer that is not a distribution over velocity bins is the same: get_p without velocity, marginal or conditional, as probability or density, by mass or light; means and central moments of every quantity, the velocity too, given anything but velocity; covariances and correlations of quantities other than velocity; L-moments of age and metallicity; and the datacube made of the same spectra. By mass, the probability of a velocity bin does not depend on the other bins: a bin that consists of several bins of the other cube has the sum of their probabilities, jointly with any other variables and given age and position. Not claimed, because the code sums over bin centres there (C68): covariances and correlations of velocity with another quantity. Not claimed, because the code normalises light to the velocity range (C32): light-weighted probabilities of velocity bins.", "quantifier": "all cubes, all pairs of velocity binnings, all centres and rotations, all sequences of valid setter calls that set everything, all distributions, weightings, orders, spectra and batch modes", "why_tests_cant": "a relation between two executions for every history of calls and every pair of binnings; tests use one cube", "anchors": ["popkinmocks/components/parametric.py:ParametricComponent.evaluate_ybar", "popkinmocks/components/parametric.py:ParametricComponent._get_log_p_v_tx", "popkinmocks/components/parametric.py:ParametricComponent.get_mean_v_tx", "popkinmocks/components/growing_disk.py:GrowingDisk.set_mu_v", "popkinmocks/components/stream.py:Stream.set_mu_v", "popkinmocks/ifu_cube.py:IFUCube.__init__"]}
{"id": "C105", "title": "A stream seen through a smaller field of view", "statement": "Make a stream by the same setter calls on two cubes, the second with only some of the columns and rows of pixels of the first. If the calls succeed on the first cube they succeed on the second. In every pixel of both, the stars are the same: distributions given the position (by light: other than of velocity), means, central moments, covariances, correlations (by light: other than with velocity) and L-moments given the position are equal. Marginal distributions with the position, and the datacube made of the same spectra, are those of the larger cube divided by the fraction of its stars (or of its light) inside the smaller field. The star formation history by mass is the same. The same is false of growing disks: their dispersions and depletion times are scaled by the largest |x| of the pixels of the cube, so that cropping the field changes the stars in a pixel. Of growing disks the star formation history by mass and the mean velocities of the stars of each age are the same, the images of the stars of each age are proportional, and if the largest |x| is the same in both cubes so are the distributions of velocity and of metallicity, and the moments of velocity, of the stars of an age in a pixel.", "quantifier": "all cubes and all windows of their pixels, all centres and rotations, all sequences of valid setter calls that set everything, all distributions, weightings, orders, spectra and batch modes", "why_tests_cant": "a relation between two executions for every history of calls and every window; tests use one cube", "anchors": ["popkinmocks/components/stream.py:Stream.set_p_x_t", "popkinmocks/components/stream.py:Stream.set_mu_v", "popkinmocks/components/growing_disk.py:GrowingDisk.set_sig_v", "popkinmocks/components/parametric.py:ParametricComponent.evaluate_ybar", "popkinmocks/ifu_cube.py:IFUCube.__init__"]}
{"id": "C106", "title": "What a rejected setter call leaves behind", "statement": "A program may catch the exception of a rejected setter call and go on with the component. For growing disks, after any sequence of attempted calls with arguments of any values and lengths, a rejected call leaves the disk as it was, a call is accepted exactly if its arguments have the right number and the method succeeds, and the disk is the one made by the accepted calls alone. For streams no query is affected by a rejected call either, but set_p_x_t stores its angles before it rejects a wrong number of angles or radii or a negative number of points: the track stays the old one and a later set_mu_v uses the new angles. Without such calls a stream, too, is the one made by the accepted calls alone.", "quantifier": "all cubes, centres and rotations, all sequences of attempted setter calls with all real arguments, sequences of all lengths, missing lmd or phi, and all integers of points; all points at which a method can raise", "why_tests_cant": "every point of every setter at which an exception can be raised, after every history of accepted and rejected calls", "anchors": ["popkinmocks/components/growing_disk.py:GrowingDisk.set_p_x_t", "popkinmocks/components/growing_disk.py:GrowingDisk.set_t_dep", "popkinmocks/components/growing_disk.py:GrowingDisk.set_mu_v", "popkinmocks/components/growing_disk.py:GrowingDisk.set_sig_v", "popkinmocks/components/parametric.py:ParametricComponent.set_p_t", "popkinmocks/components/stream.py:Stream.set_p_x_t", "popkinmocks/components/stream.py:Stream.set_mu_v"]}
{"id": "C107", "title": "Similar components give similar answers", "statement": "Take the distance of two distributions on the same bins to be the sum of the absolute differences of their probabilities. If two components are close in the distribution of some variables, they are at least as close in the distribution of any fewer variables, weighted by mass or by light (for components that are not plain, as long as velocity is kept or was not there). The means of age, position and metallicity of two normalised components differ by at most half the distance of their distributions times the distance between the first and last bin centres. Changing the weights of a mixture changes its distributions by at most the sum of the changes of the weights, each times the total of the member. At each wavelength the datacubes of two plain components with as many velocity bins as wavelengths differ, summed over pixels, by at most the distance of their joint distributions times the largest absolute flux of the templates.", "quantifier": "all bins, all pairs of plain, parametric and mixture components on them in any combination, both weightings, all pairs of nested sets of variables, all weights", "why_tests_cant": "a bound for all pairs of components", "anchors": ["popkinmocks/components/base.py:Component.get_p", "popkinmocks/components/base.py:Component.get_mean", "popkinmocks/components/mixture.py:Mixture.get_p", "popkinmocks/components/mixture.py:Mixture.get_mean", "popkinmocks/components/base.py:Component.evaluate_ybar"]}
{"id": "C108", "title": "A few particles change little", "statement": "Two lists of particles that have some particles in common, in any order, and differ in others give components whose distributions, by mass or by light, differ (summing absolute differences of probabilities) by at most 2 b / (a + b), where a is the mass (light) in range of the common particles and b that of the others in whichever list has more of it. So leaving out, adding or changing particles with a fraction e of the mass changes at most 2 e. The mean of any variable over all stars changes by at most half of that times the distance between the first and last bin centres. Moving particles within their bins changes nothing. The datacubes differ at each wavelength, summed over all pixels, by at most 2 b / (a + b) (by mass) times the largest flux of the templates.", "quantifier": "all cubes, all lists of particles with non-negative masses and some mass (light) in range, all common parts and orders, both weightings, all marginal distributions, all means over all stars, all displacements that keep particles in their bins (or out of range)", "why_tests_cant": "a bound for all pairs of lists of particles of any length", "anchors": ["popkinmocks/components/particle.py:FromParticle", "popkinmocks/components/base.py:Component.get_p", "popkinmocks/components/base.py:Component.get_mean"]}
{"id": "C109", "title": "Nearly equally bright stars", "statement": "If among the stars that meet a condition none is more than k times as bright per mass as another, then weighting by light instead of mass changes no probability given that condition by more than the factor k, and no mean of age, position or metallicity by more than 1 - 1/k times the distance between the first and last bin centres. The same holds without a condition if the total mass is 1. (Distributions of the velocity are included for plain components; for parametric components they are not, where it is false.)", "quantifier": "all plain components, parametric components and mixtures, all template libraries, all bounds k on the spread in brightness, all 50 conditional and 15 marginal distributions, as densities or probabilities, all means given any variables, all bins with stars", "why_tests_cant": "a bound for all components and all template libraries", "anchors": ["popkinmocks/components/base.py:Component.get_p", "popkinmocks/components/base.py:Component.get_mean", "popkinmocks/components/mixture.py:Mixture", "popkinmocks/components/parametric.py:ParametricComponent"]}
{"id": "C110", "title": "Components without gradients", "statement": "In a stream, and in a growing disk whose limits are all given the same for the young and the old and whose depletion time is the same at the centre and far out, age and metallicity are independent of position and velocity in everything returned: joint distributions are products; distributions, means and central moments of one kind given anything depend only on the conditions of that kind; covariances between the two kinds are 0; light lies where mass lies and moves as mass moves; and the datacube is the one that results if every template is replaced by their average weighted with the distribution of age and metallicity, so that all pixels show one and the same spectrum but for the velocities. (One distribution is left out: velocity given age and position, weighted by light, which is normalised differently from the others, see C99.)", "quantifier": "all cubes, centres and rotations, all histories of valid setter calls (of that form for disks), all pairs of distributions, all conditions, all orders of moments, weighted by mass or light, as densities or probabilities, all bins with stars", "why_tests_cant": "for all histories, arguments and grids", "anchors": ["popkinmocks/components/stream.py:Stream", "popkinmocks/components/growing_disk.py:GrowingDisk", "popkinmocks/components/parametric.py:ParametricComponent", "popkinmocks/components/base.py:Component.get_p", "popkinmocks/components/base.py:Component.get_mean", "popkinmocks/components/base.py:Component.get_covariance", "popkinmocks/components/parametric.py:ParametricComponent.evaluate_ybar"]}
{"id": "C111", "title": "Limits of the velocities of disks and streams", "statement": "If all set_mu_v calls of a stream give limits between lo and hi (of a disk: speeds vmax_lims of at most hi either way) and all set_sig_v calls dispersions between s0 and s1, then every mean velocity u returned by get_mean, overall or given any variables, weighted by mass or light, lies between lo and hi (-hi and hi), and the variance there between s0**2 and s1**2 + (hi-u)*(u-lo), so at most s1**2 + ((hi-lo)/2)**2. In a pixel of a stream, given whatever else, the mean is the one stored for this position and the central moments of every order are those of a normal distribution of the dispersion that was set. Changing this dispersion from s to s' adds s'**2 - s**2 to all variances and leaves the means.", "quantifier": "all cubes, centres and rotations, all histories of valid setter calls that make the component complete, all limits, all conditioners of v, both weightings, all bins with stars, all orders of moments", "why_tests_cant": "bounds on all answers for all arguments, grids and histories", "anchors": ["popkinmocks/components/stream.py:Stream.set_mu_v", "popkinmocks/components/stream.py:Stream.set_sig_v", "popkinmocks/components/growing_disk.py:GrowingDisk.set_mu_v", "popkinmocks/components/growing_disk.py:GrowingDisk.set_sig_v", "popkinmocks/components/parametric.py:ParametricComponent.get_noncentral_moment_v", "popkinmocks/components/parametric.py:ParametricComponent.get_central_moment_v", "popkinmocks/components/base.py:Component.get_mean"]}
{"id": "C112", "title": "A mixture's answers lie between those of its members", "statement": "For a mixture whose weights add up to one, with normalised members: every entry of get_p (any of the 15 distributions, as density or probability, weighted by mass or light) is at least the same entry of one member and at most that of another. So is every mean (get_mean, overall or conditional), wherever all members have stars. For variances, with u and v the mean and variance of the mixture and mu_i and s_i those of the members, one member has s_i + (mu_i-u)**2 <= v, so the variance of the mixture is at least that of one member, and another has v <= s_i + (mu_i-u)**2. Light-weighted means given the velocity are left out: there the code does not average (C66).", "quantifier": "all mixtures of any number of parametric and plain members with positive weights, all grids, all distributions and conditioners, both weightings, all bins", "why_tests_cant": "inequalities for all mixtures, grids, distributions and bins", "anchors": ["popkinmocks/components/mixture.py:Mixture.get_p", "popkinmocks/components/mixture.py:Mixture.get_mean", "popkinmocks/components/mixture.py:Mixture.get_central_moment", "popkinmocks/components/base.py:Component.get_variance"]}
{"id": "C113", "title": "Units and origins of all quantities do not matter", "statement": "Make a component from particles twice: once as given, and once with the ages, velocities, positions and metallicities, and the edges of the bins of the cube, converted to other units and origins (q -> s_q + k_q q, k_q > 0, separately for each quantity; nan and infinite values included). If the first is made so is the second, and as many particles are reported lost, in total and below and above each range. All probabilities are equal, densities are divided by the unit of volume, means are converted like the quantity, central moments of order j are multiplied by k_q^j, covariances by both units, normalised moments (skewness, kurtosis) and correlations are equal, and L-moments are multiplied by k_q where the origin stays. nan answers stay nan. The same holds for any component with a table of densities, and, for the probabilities, means, central and normalised moments, for mixtures of such components with the same weights.", "quantifier": "all grids, all lists of particles with non-negative masses of which some are inside, all positive units and all origins, all distribution strings, both weightings, all moment orders, all cells", "why_tests_cant": "ranges over all particle lists, grids, units and origins", "anchors": ["popkinmocks/components/particle.py:FromParticle.__init__", "popkinmocks/components/base.py:Component.get_p", "popkinmocks/components/base.py:Component.get_mean", "popkinmocks/components/base.py:Component.get_central_moment", "popkinmocks/components/base.py:Component.get_covariance", "popkinmocks/ifu_cube.py:IFUCube.__init__", "popkinmocks/components/mixture.py:Mixture.get_p", "popkinmocks/components/mixture.py:Mixture.get_central_moment"]}
{"id": "C114", "title": "What the L-dispersion measures, and bounds of L-moments", "statement": "get_l_dispersion of age, velocity or metallicity (overall or conditional, by mass or light) is half the mean distance of two stars drawn independently from the distribution that get_p returns, where stars of different bins are as far apart as the bin centres and stars of the same bin count as one bin width apart. So wherever it is defined it is positive, at most half the range of the grid, and at most sqrt(variance/2) plus half the width of the widest bin. L-moments of every order are in absolute value at most the greatest absolute value of an edge. For parametric components and mixtures this holds for age and metallicity. (The textbook L-dispersion is at most a quarter of the range; the returned one need not be.)", "quantifier": "all grids, densities, parametric components and mixtures, all conditioners, both weightings, all orders, all cells with stars", "why_tests_cant": "identities and inequalities over all distributions and grids", "anchors": ["popkinmocks/components/base.py:Component.get_l_moment", "popkinmocks/components/base.py:Component.get_l_dispersion", "popkinmocks/components/base.py:Component.get_variance"]}
{"id": "C115", "title": "Few stars are far from the mean", "statement": "The answers of get_p, get_mean and get_variance (equivalently get_dispersion) about age, velocity or metallicity belong to the same stars: in the distribution that get_p returns, at most variance/k^2 of the stars are k or farther from the mean that get_mean returns, at most variance/(variance + k^2) are k or more above it and as many below, the variance is at most (last bin centre - mean)*(mean - first bin centre), and it is zero exactly when one bin holds all stars. This holds overall and given any conditioner, by mass and by light; for parametric components and mixtures for age and metallicity (for mixtures weighted by light, not given the velocity, where the means are wrong: C66).", "quantifier": "all grids, densities, parametric components after any history, mixtures of any members, all conditioners, both weightings, all distances k > 0, all cells with stars", "why_tests_cant": "inequalities between the answers of three methods for all distributions", "anchors": ["popkinmocks/components/base.py:Component.get_p", "popkinmocks/components/base.py:Component.get_mean", "popkinmocks/components/base.py:Component.get_variance", "popkinmocks/components/mixture.py:Mixture.get_mean"]}
{"id": "C116", "title": "Few stars are far from the centre of the image", "statement": "For a parametric component (disk, stream), a component with a table of densities or made from particles, and a mixture of such components, where all members have stars (and, weighted by light, not given velocities unless all members have tables), get_p('x...'), get_mean('x...') and get_variance('x...'), given other variables or not and in either weighting, answer about the same stars: the image sums to 1; for every k > 0 the pixels whose centres are k or farther from the mean position hold at most (var_x1 + var_x2)/k^2 of the stars, those k or more to the left or right at most var_x1/k^2, those k or more above or below at most var_x2/k^2; each variance is at most the product of the distances of the mean from the outermost pixel centres; and both variances are 0 exactly if all stars are in one pixel.", "quantifier": "all grids, densities, weights of mixtures, conditions, both weightings, all distances k > 0", "why_tests_cant": "ranges over all images and distances; three methods computing from different tables have to agree", "anchors": ["popkinmocks/components/base.py:Component.get_p", "popkinmocks/components/base.py:Component.get_mean", "popkinmocks/components/base.py:Component.get_variance", "popkinmocks/components/mixture.py:Mixture.get_p", "popkinmocks/components/mixture.py:Mixture.get_central_moment"]}
{"id": "C117", "title": "A correlation of one means a straight line", "statement": "For a component with a table of densities or made from particles, and for a mixture of such components all of which have stars, get_correlation is nan exactly where there are no stars or where one of the two quantities is the same for all stars. Everywhere else it is between -1 and 1. It is 1 exactly if the stars are on a rising straight line in the plane of the two quantities, and -1 exactly if they are on a falling one. Where there are stars, the same holds for disks, streams and mixtures with them, for pairs of quantities other than velocity.", "quantifier": "all grids, densities, disks, streams, mixtures and weights, pairs of quantities, conditions, both weightings", "why_tests_cant": "an equivalence over all densities; a test can only show that some aligned samples give 1", "anchors": ["popkinmocks/components/base.py:Component.get_correlation", "popkinmocks/components/base.py:Component.get_covariance", "popkinmocks/components/base.py:Component.get_variance", "popkinmocks/components/mixture.py:Mixture.get_central_moment"]}
