{
 "C21": {
  "status": "partial",
  "note": "Non-negativity and scaling are proved for all orders. Translation invariance is proved for order 2 (C21_translation_partial); the code violates it at order 3 (C21_translation_fails); C21_affine states the exact shift law for every order."
 },
 "C29": {
  "status": "partial",
  "note": "Proved wherever every member has probability at the conditioner, and always for unconditional moments. Where one member has none, the code returns nan although the mixture is well defined there: C29_fails_at_empty_members refutes the full claim."
 },
 "C34": {
  "status": "proved",
  "note": "For scipy releases in which factorial2(-1) is 1. C34_factorial2 and C34_factorial2_wrong state what happens otherwise; C34_ignores_z shows that get_noncentral_moment('v_txz') uses the centres at the first metallicity only."
 },
 "C43": {
  "status": "partial",
  "note": "C43_edges_iff states exactly for which increasing values the property holds; it holds for all positive values (C43_edges_partial). It is false when the lowest edge is within 0.011 of zero and the lowest value is not positive (C43_snapped), because the code then moves the edge to zero."
 },
 "C44": {
  "status": "partial",
  "note": "Proved for every object whose ages are not rebinned. With age_rebin > 1 the code keeps the old index table: C44_rebinned_error (IndexError for an existing column) and C44_rebinned_wrong (age and metallicity of another bin) refute the full claim."
 },
 "C57": {
  "status": "partial",
  "note": "The claim is false of the code: C57_not_adjacent refutes it for every increasing wavelength array with at least two bins (the code sums pixels that are n//k apart), and C57_divisible shows that all pixels are lost when k divides n. C57_strided says what is computed; C57_adjacent_partial is the case in which the claim holds."
 },
 "C46": {
  "status": "proved",
  "note": "C46_complete states the check for files without repeated pairs; C46_duplicates shows that with repeated pairs the check alone can pass on an incomplete grid, but C46_columns shows that the constructor with limits or thinning still succeeds only on a full grid."
 },
 "C58": {
  "status": "proved",
  "note": "C58_lost_cache shows what happens when the cache file was removed meanwhile: the truncated spectra are kept and written as the new cache."
 },
 "C53": {
  "status": "partial",
  "note": "C53_image and C53_unchanged_partial hold for cubes whose ranges are tuples (the default and documented type). With ranges given as lists the claim is false: C53_list_grows, C53_stale_extent and C53_mixed refute it."
 },
 "C60": {
  "status": "partial",
  "note": "C60_ticks and C60_object prove the claim for set_tick_positions on every SSP object. The constructor places ticks before rebinning: right if the factors divide the numbers of bins (C60_new_partial), wrong otherwise (C60_rebin_wrong)."
 },
 "C61": {
  "status": "proved",
  "note": "C61_ambiguous: if there are as many wavelengths as resampled wavelengths, plot_spectrum draws resampled spectra against the tabulated wavelengths."
 },
 "C51": {
  "status": "proved",
  "note": "Saving is not atomic (C51_not_atomic, C51_unpicklable); without a final slash in direc the file is written beside the directory (C51_no_slash); leaving out direc always raises TypeError (C51_default)."
 },
 "C63": {
  "status": "partial",
  "note": "The convolution and shift are proved for even transform lengths, which FFT grids of even length have; for odd lengths n the code's frequencies are too large by n/(n-1): C63_odd states the exact datacube and C63_odd_wrong refutes the claim for every odd n >= 3. Batching and flux hold for all lengths."
 },
 "C64": {
  "status": "proved",
  "note": "Proved in the memory model. The two queries that hand out the component's own array (get_mean('v_tx'), get_mean('v_txz')) are part of the statement; C64_mean_shared shows the effect of overwriting such an answer."
 },
 "C66": {
  "status": "partial",
  "note": "Means: proved except light-weighted means given the velocity, where C66_mean_given_velocity proves what is returned and C66_mean_given_velocity_wrong shows that it is not the mean. Central moments: proved about the mean which the mixture returns, except for the velocity given age, pixel and metallicity, where C66_velocity_given_all_wrong refutes the claim. Central moments with parametric members take for granted that scipy.special.factorial2(-1) is 1 (see C44)."
 },
 "C67": {
  "status": "proved",
  "note": "Proved in the memory model. Histories that overwrite a data cube, or an answer of get_mean('v_tx') or get_mean('v_txz') of a parametric component, can change just these data cubes and mean velocities (C67_answers_any). The constructor copies the weights but keeps the user's list (C67_list_shared)."
 },
 "C68": {
  "status": "partial",
  "note": "Spread and shape: proved for all quantities and strings (the moments of velocities take for granted that scipy.special.factorial2(-1) is 1, see C44). Covariances, correlations and L-moments: proved without the velocity. With the velocity, C68_covariance_velocity and C68_correlation_velocity prove what is returned (bin centres, stars in the velocity range, means of all stars), C68_correlation_wrong shows a correlation above 40 and C68_l_mean_wrong an L-mean far from the mean."
 },
 "C69": {
  "status": "partial",
  "note": "As C68, with the restrictions of C66: not for light-weighted answers given the velocity, and not for moments of the velocity given age, pixel and metallicity. C69_correlation_wrong shows a correlation above 40 of a mixture."
 },
 "C70": {
  "status": "partial",
  "note": "Proved for all limits except the default: without limits the constructor needs a cached file that the repository does not contain, and raises AttributeError (C70_default_fails). The names, number and length of the shipped files are assumptions of LibraryDir, checked against /repo/data by hand; that spectra are positive is the assumption Bright."
 },
 "C71": {
  "status": "partial",
  "note": "Proved except for delta_lmd, which is never the spacing of the wavelengths (C71_spacing_wrong), and except for the base class itself, which cannot be constructed because it lacks par_mask_function (C71_base_class)."
 },
 "C72": {
  "status": "partial",
  "note": "Everything but the bounds is proved. The bounds fail because the L-moments of order three and higher are not translation invariant (C21): C72_bound_fails gives every real number as an L-skewness. The L-dispersion of the velocity of a parametric component can be negative (C72_dispersion_negative), because its distribution over the velocity bins need not sum to one."
 },
 "C73": {
  "status": "partial",
  "note": "Proved for mixtures of plain components. For mixtures with parametric members: the marginals over variables including the velocity and the conditionals given the velocity (C73_mixture_partial), all strings if no stars lie outside the velocity range. The rest fails (C73_parametric_lost): the table of a parametric component misses the stars outside the velocity range, so all marginals without the velocity come out too small."
 }
}