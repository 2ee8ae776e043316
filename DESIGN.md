# Formal model of popkinmocks in Lean 4

Source: `/repo` (popkinmocks 1.0.1, python). Model and theorems: `lean/Verif/`.
`properties.jsonl` lists the properties, `MANIFEST.json` maps them to theorems, `AXIOMS.md` lists the axioms of every
theorem, `seeded/LOG.jsonl` records what happened when the model was edited the way a bug would edit the program.

## 1. How to read the development

* `Verif/Spec.lean`, and the small definitions at the head of each `Verif/Props/*.lean`, are the specification. They do
  not use the model of the code: a grid is five sequences of edges, a cell five indices, a marginal is "the sum over all
  cells with these coordinates", a conditional a quotient, and so on.
* `Verif/Props/*.lean` hold the property theorems `Cnn_*`. Each says: this call of the modelled API returns (or raises)
  exactly this. Below each theorem an `example` meets its hypotheses with a concrete non-trivial object.
* All other modules are the model (each definition cites file and lines) or lemmas.
* Suffix `_partial`: only a part of the English property is proved; what is missing is said at the theorem and in
  `manifest_notes.json`, and where the code violates the property, a theorem refutes it with a witness.

## 2. Modelling choices

* **Numbers** (`Num.lean`). `Num = fin r | pinf | ninf | nan`, `r` an exact real. The arithmetic is IEEE-754's without
  rounding, overflow and signed zeros: `log 0 = -inf`, `log(-1) = nan`, `-inf - -inf = nan`, `0/0 = nan`, `a/0 = ±inf`,
  `0*inf = nan`. "Where is the result nan" is part of the model; rounding error is not.
* **Arrays** (`Np.lean`). `Arr α` = shape (list of naturals) + indexing function. numpy's right-aligned broadcasting
  (`ValueError` when shapes do not match), `.T`, `moveaxis`, newaxis/slice/integer indexing, `sum`, `cumsum`,
  `concatenate`, `reshape`, `logsumexp` for every rank and size, with numpy's error cases. Theorems speak about the
  shape and all in-range entries.
* **Exceptions** are values: `Py α = Except PyErr α`, one constructor per Python exception class.
* **Strings** are lists of characters; `split("_")`, `in`, `replace`, `sorted`, `find` are functions on them.
* **Objects**: attribute lookup by name (`getattr(self, "_get_log_p_" + w)`, `hasattr(self, "get_mean_" + w)`) is a table
  in the record `Self`, so the code of the base class is modelled once and used for base, parametric and mixture objects.
* **Memory** (`Heap.lean`, `HeapComp.lean`, `HeapQuery.lean`, `HeapView.lean`, `HeapParam.lean`, `HeapMix.lean`). The numerical model is functional. That this is faithful (no
  stored array is updated in place through an alias) is itself a property (C48): there, arrays are views of buffers in a
  heap, `-=` writes to the buffer, and the theorems follow the code of base.py through every query. The same for
  parametric.py (C64), whose code uses `+=` also on views, and for mixture.py (C67). The read-only flag of `np.broadcast_to` is not modelled: the
  user of the model can overwrite more than the user of numpy. A setter is a new array of any contents bound to an attribute.
* **File system** (`Save.lean`): a tree of directories and files with a working directory; a crash is a prefix of the
  bytes written.

## 3. Plan and result per property

`F` = file in `lean/Verif`, theorems in `lean/Verif/Props`.

| id | modelled in | how it is proved |
|---|---|---|
| C01, C02 | `Cube` | the 65 accepted strings are a finite table; sizes and widths are symbolic; `construct_volume_element` is evaluated on each string |
| C03 | `Cube`, `InitLemmas` | linspace over the reals; constructor evaluated for all sizes and ranges, with its error cases |
| C04 | `Component` | case split on shape equality, for shapes of every length |
| C05–C11 | `Component`, `CompLemmas`, `BaseLemmas` | `_get_log_p_tvxz` once; each marginal by exchange of sums; conditionals by the `moveaxis` model; the rest from the specification |
| C12 | `PyStr`, `Component` | analysis of `split`/`sorted` for all strings; which queries succeed, fail, and with which exception |
| C13–C19 | `Moments`, `MArr`, `Expect`, `MomentApi`, `StdMoments`, `MomentMath` | moments as sums over cells; Jensen, Cauchy–Schwarz, Pearson's inequality on finite sums |
| C20–C22 | `LMoment` | Abel summation on cumulative sums; Legendre polynomials as in scipy |
| C23–C26 | `Ybar`, `YbarLemmas`, `Dft`, `Props/Padding` | FFTs as the finite sums they compute; loops as array updates with an invariant; the spline is a parameter |
| C27–C30 | `Mixture`, `MixLemmas`, `MixArr`, `MixMoments`, `Rows` | induction over the list of members, each an arbitrary object satisfying the interface contract proved for base and parametric components |
| C31–C36 | `Parametric`, `ParamSet`, `ParamMarg`, `ParamApi`, `Gauss`, `Beta`, `Enrich`, `VelMoments` | scipy's normal and beta laws are Mathlib's `gaussianReal` and beta measure; each `_get_log_p_*` against one factorised joint; binomial expansion for the moments |
| C37, C52 | `Disk`, `DiskLemmas` | real analysis of the formulas, pointwise for every pixel, age and parameter |
| C38 | `Disk`, `StreamLemmas`, `Props/EqualAngles` | as above |
| C39 | `Particle`, `HistLemmas` | induction over lists of particles |
| C40, C41 | `Noise`, `NoiseLemmas`, `Heap` | pointwise; C41 over all histories of calls in the heap model, random draws an arbitrary stream |
| C42–C44, C54, C60 | `Ssp`, `SspInit`, `SspLemmas`, `Plot` | index arithmetic of rebinning for all sizes and factors |
| C45 | `Miles` | parser and printer on all strings of the file-name format |
| C46, C47, C55–C58 | `Miles`, `MilesLemmas`, `MilesGrid` | lists of files and arrays of wavelengths of every length |
| C48 | `Heap`, `HeapComp`, `HeapQuery` | Hoare-style rules for views and buffers; invariant over all histories of queries |
| C49 | `Setup`, `Protocol` | state machine of optional attributes; all orders of setter calls |
| C50, C59 | `Shared`, `SharedLemmas` | one SSP object and a list of cube constructions; invariant over histories |
| C51, C62 | `Save` | file-system tree; frame property for all other paths; every prefix of the write as crash point; histories of saves |
| C53, C61 | `Plot` | what is handed to matplotlib (array, extent, coordinates), for all arrays and sizes |
| C64 | `HeapParam`, `HeapParamLemmas`, `HeapView` | as C48, method by method for parametric.py; invariant over histories that also set parameters |
| C65 | `PopSpec`, `PopLemmas` | both kinds of members as one notion of population; instances of the general mixture lemmas of C27 |
| C66 | `VelPoint`, `PopMember`, `PopMoments` | what one member answers about one variable (pointwise, for any centres), then the weighted sums of the members; two refutations with a disk mixed with two stars |
| C67 | `HeapMix`, `HeapMixLemmas` | mixture.py with memory, method by method; invariant over histories of many components, lists and mixtures: private arrays are disjoint from all arrays held by the user, public ones from those not marked |
| C68 | `AlgMoment`, `CovSpec`, `PopDerived`, `PopLMoment`, `FlatDisk` | moments of the stars are a positive functional on polynomials, which gives variances, Pearson's and Cauchy's inequalities; the methods of base.py are then followed with the means, moments and tables of C31-C34; refutations with a uniform component by Chebyshev's inequality |
| C69 | `PopDerivedMix`, `PopLMoment` | the same generic lemmas, with the answers of mixtures proved in C65 and C66 |
| C70 | `Library` | the shipped file names as finite tables of metallicities and ages (in units of 0.01), so that C42 to C48 apply; then C03 and the theorems about components |
| C71 | `ModelGrid`, `ModelGridSpec` | meshgrid, reshape and masked columns for any number of axes; row-major numbering is a bijection that is increasing in lexicographic order |
| C72 | `Props/LShape` | the L-dispersion as a sum of squares (induction over bins); reflection of sums for symmetric distributions; quotients of the answers of C20, C68 and C69 |
| C73 | `Props/Tabulate` | the logarithms of the table are those of the weighted sum of the members' tables, so that the theorems about plain components (C05, C65, C23) apply to it; the stars outside the velocity range give the strict inequality |
| C74 | `Props/MixAlgebra` | weighted sums over a list of members as sums over components of total weight times value; the answers of C65, C66 and C30 are such sums |
| C75 | `Subclass`, `Props/Subclass` | an object is a table of own methods over the inherited ones, which call the joint method dynamically; the contract of C05–C22 is derived from the truth of the own methods |
| C76 | `Props/ParticleMoments` | sums over cells of the histogram are sums over particles (C39); distances between a particle and the centre of its bin are at most half a bin, carried to means by monotonicity and to dispersions by Minkowski's inequality |
| C77 | `Props/Join` | the density of the joined list is the weighted sum of those of the lists, so both objects have the same table; the agreement of a mixture with a component of its table is C73 |
| C78 | `Props/NoiseLaw` | the draws are independent standard normal random variables; each voxel of each call is an affine function of its own draw, at different positions of the sequence for different voxels and calls; laws and independence carry over from Mathlib |
| C79 | `Props/Coarse` | two grids whose bins are nested; an index of a fine array lies in exactly one block at one place (induction on the list of block sizes), so sums over stars regroup; the datacube is linear in the density of a spaxel |
| C80 | `Props/Truncation` | probability outside the velocity range: Chernoff bound on the normal tails, summed over ages, pixels and metallicities; all strings with velocity, both weightings; rebuilt tables |
| C81 | `Props/Turn` | Simulation: `UpTo T r r'` (same result up to `T`, or same exception) through all setters for full turns; `Opposite` (positions negated, rest equal) for half turns, where the velocity field needs cos(atan2(-y,-x)) = -cos(atan2(y,x)) off the centre and the factor 0 or nan at it. No hypothesis on the cube. |
| C82 | `Props/PointSymmetry` | Invariant `Mirrored` of the stored arrays under all valid calls (from the formulas of C37), then reindexing of the sums of C32 and C34 by the reflection of the pixels, with normal(-μ,σ) the reflection of normal(μ,σ). |
| C83 | `Props/Units` | Relation `InUnits` between the two components kept by every valid call (formulas of C37 and C38 are homogeneous in lengths), then the answers by C32, C34, C54 and C80 with all sums rescaled. |
| C84 | `Props/Order` | Each call writes one slot as a function of its arguments, the constructor's attributes and at most one other slot (unfolding of the setters); induction on histories from the end. `C84_matters` computes the witness with the beta quantiles of a symmetric law. |
| C85 | `Props/Metal` | Interpolation in a monotone table and in a shifted table is monotone; the nearest tabulated time is monotone; Gaussians with mean ζ and variance aζ^b, 0 < b < 1, have a monotone likelihood ratio on positive numbers, hence so have the bins (integrals); expectation of a monotone function under a monotone ratio by a symmetric double sum. |
| C86 | `Props/Older` | Beta densities have a monotone likelihood ratio in their parameters; integrals over bins keep it (comparison with the ratio at the edge, integrable singularities allowed); distribution function and quantiles follow; light multiplies both histories by one factor per age. |
| C87 | `Props/Growth` | The ratio of two cored power laws is monotone in radius when one is steeper with a smaller core; concentration follows by comparing all pairs of pixels; in a pixel the ages are `p(t) p(x|t)` normalised, so the same ratio orders them between pixels. |
| C88 | `Props/Kinematics` | `r/(r+2m)^3` is compared at `r` and `kr` by a polynomial identity; mean velocities are linear in the mean field; variances are averages of `sigma^2 + (mu - a)^2` about a mean that the dispersion does not change; bands telescope to differences of the normal distribution function. |
| C89 | `Props/AgeMetal` | By Bayes' rule the likelihood ratio order of metallicities between ages (C85) is that of ages between metallicities; the metallicity distribution of a pixel is a mixture over ages, and cumulative fractions and means are monotone in age, so a tilt of the ages (C86) shifts the mixture. |
| C90 | `Props/TotalVar` | Products of the probability of a group with its mean, variance and covariance are sums over the cells of the group (zero for groups without stars, by Cauchy's inequality); sums over groups are sums over all cells. Inequality: the variance of the means is a sum of squares. |
| C91 | `Props/Bright` | Where light only depends on the bin of the quantity, the distribution by light is that by mass times the light of the bin, up to a constant: a monotone likelihood ratio (`Tilted`, C85), which orders distribution functions and means. |
| C92 | `Props/Doppler` | The setters are affine in their velocities; normal distributions map to normal distributions under `v -> a v + b`, so bins map to their images and moments follow by change of variables under the sums of C32 and C34. The shift of datacubes is `C63_shift_partial`. |
| C93 | `Props/AnyCentre` | The inherited method sums over bins with the mixture's own `get_p` (C65), so for age, position and metallicity it is the expectation; for velocities it is a sum over bin centres, which is the expectation for plain members (`C93_plain`) but not for parametric ones (`C93_velocity_wrong`). |
| C94 | `Props/StreamEnds` | The samples of the track are the same points in the reverse order and the fraction of the way along it becomes its complement, so the stored arrays agree (induction over the history); equal arrays give equal answers (as in C83 with the identity). |
| C95 | `Props/NestedMix` | Induction over the tree of mixtures: means and datacubes of unions are weighted sums. Partial: distributions of a mixture with a mixture among its members raise AttributeError, with them all other queries that need one; velocities are refuted by a disk mixed with a mixture of disks. |
| C96 | `Props/FluxUnit` | Light weights and all light-weighted sums are linear in the spectra, so the factor cancels in every share, conditional and moment; datacubes by linearity of the transforms. Moments of mixtures through the formulas that they return, right or wrong (C66). |
| C97 | `Props/GivenOnly` | Populations: all sums over the stars that meet the condition are multiplied by κ, which cancels in every ratio; the answers of the three kinds of objects are the population's (C01, C32, C65–C72). Datacubes: by the closed forms of C23 and C63. Partial: velocity by light needs the same fraction of light in the velocity range, refuted otherwise (`C97_velocity_wrong`). |
| C98 | `Props/EquallyBright` | Populations: every sum over equally bright stars is multiplied by their brightness, which cancels in every ratio; the answers of the three kinds of objects are the population's (C01, C32, C65–C72). Partial: velocity of parametric components and mixtures, refuted (`C98_velocity_wrong`). |
| C99 | `Props/Indep` | Sums over one age, position and velocity bin are the bin's velocity probability times the sum over age and position; with C32 and C69–C71 every ratio loses the velocity. The covariance factorises and the factor of metallicity is 0. By light p(v given t,x,z) is not p(v given t,x): `C99_light_wrong`. |
| C100 | `Props/Templates` | `evaluate_ybar` is a sum over age and metallicity of a transform of the template times a transform of velocities (C23, C63). Both transforms are linear; the transform of a constant vanishes except at frequency 0, where that of the velocities is the total mass (node of the interpolation, characteristic function at 0). Equal templates: the sum over age and metallicity moves inside the velocity transform. Mixtures by C30. |
| C101 | `Props/MirrorImage` | The two frames have equal x and opposite y at mirrored pixels, so elliptical radii, rotation curves and track weights agree there; relation between the stored arrays of two components kept by every setter call (induction on the history); then invariance of all sums over cells under reversal of y. Streams: the argument of the conjugate is the opposite angle off the negative half axis; on it both are π (`C101_on_the_cut`). |
| C102 | `Props/Image` | Flux conservation (C24, C63, C30) gives the sum of a spaxel as the light of its stars with the resampled totals for light weights; compare with the marginal in `x` term by term. Exact for grey libraries by linearity of the interpolation. Negation: a library sampled at the pixels of the cube, old stars shining at the last wavelength only. |
| C103 | `Props/Fluxes` | Plain: circular convolution (C26) with a non-negative kernel. Parametric: the flux is an average of the continued template (C63), integral monotonicity; the Dirichlet kernel is at most 1 and continues constants exactly. Mixtures: weighted sums (C30). Noise: C40, C41. Negation: one line among four wavelengths, mean velocity half a pixel: flux (1 - sqrt 2 e^-ε)/4. |
| C104 | `Props/VelocityBins` | The stored arrays of both components are equal after every call (relation `InUnits` of C83 with unit 1, by induction over the calls), so both have the same ingredients; formulas of C32, C34, C63, C68 without velocity do not mention the bins. Bins: probabilities of intervals telescope. |
| C105 | `Props/FieldOfView` | Streams: after every call the stored arrays of the second component are those of the first in the common pixels, with `p(x\|t)` multiplied by one constant (induction over the calls); in formulas of C32, C34, C63, C68 given the position the constant cancels. Disks: the same relation between the stored arrays, with one constant per age, and for dispersion and metallicity only if the largest `\|x\|` is the same. Disks: the closed form of C34 of a dispersion falling linearly with radius, on five columns and on the three in the middle. |
| C106 | `Props/Rejected` | `Attempt.lean`: the bodies of the setters as statements that give an outcome and the object left behind, assignments in the order of the code. Nothing after the first assignment of a disk setter can raise on a proper cube; induction over the attempted calls. Streams: the two tracks of the witness, with C38. |
| C107 | `Props/Similar` | No new model. The distance is the sum over cells of the difference times its sign in the bins of the variables; signs in coarser bins are among the functions of modulus one of the finer bins. |
| C108 | `Props/FewParticles` | No new model. Averages over both lists (C76) of the sign of the difference (C107) written as sums over the common and the other particles. |
| C109 | `Props/NearlyBright` | No new model. Amounts of light lie between multiples of amounts of mass (C65, C32 for the tables); a mean by light is 1/k of the mean by mass plus an average with non-negative weights. The velocity of parametric components is refuted (from C98). |
| C110 | `Props/NoGradient` | No new model. Invariant of the histories: the stored arrays do not depend on age (metallicities: on position). Then every sum over cells is a sum over age and metallicity times a sum over position and velocity, and the answers follow from C32, C66 and the population theorems; the datacube from C63's formula and linearity of the transforms. |
| C111 | `Props/Speeds` | No new model. Invariant of the histories: the stored means and dispersions are within the limits of the calls (C37). The answers are averages of them (C34), so the bounds follow from the linearity of averages; the one on the variance from (hi-v)(v-lo) >= 0. |
| C112 | `Props/MixBetween` | No new model. The answers of the mixture are averages of those of its members with positive weights (C65, C66), and averages lie between the least and the greatest number; variances by expanding the squares about another centre. |
| C113 | `Props/AllUnits`, `Props/MixUnits` | No new model. The second grid has the edges of the first under an increasing affine map, so particles fall in the same bins; every answer is compared through the specification theorems of C05-C22 and C39; mixtures through those of C27 and C29. |
| C114 | `Props/LBounds` | No new model. By induction over the bins the trapezoid sum of order 2 is the sum over pairs of bins; bounds of Legendre polynomials by the decreasing quantity (P_{n+1}-xP_n)^2+(1-x^2)P_n^2; Jensen for the comparison with the variance. |
| C115 | `Props/FarStars` | No new model. The three answers are the bin probabilities, their mean and their variance (C05-C16, C66, C68); Chebyshev, Cantelli and Bhatia-Davis for finitely many bins. |
| C116 | `Props/FarPixels` | No new model. The table of pixels is summed to an expectation over cells; then Chebyshev in two dimensions and the bound of Bhatia and Davis, through the tables and moments of C13-C16, C29 and C68. |
| C117 | `Props/StraightLine` | No new model. The case of equality of the inequality of Cauchy and Schwarz, through the covariances and variances of C17-C19, C29 and C68. |
| C63 | `ParamYbar` | as C23–C26, with the analytic Fourier transform of the normal law |

Properties not expressible: none of the listed ones. Not listed because no model of this kind can carry them: rounding error,
speed and memory use, and what the figures look like on a screen.

## 4. Trusted base

* Lean 4.33.0's kernel. Axioms: `propext`, `Classical.choice`, `Quot.sound`; no others (`AXIOMS.md`, generated by
  `tools/axioms.py` from `#print axioms` on every theorem in `MANIFEST.json`). No `sorry`, `native_decide`, `bv_decide`, `unsafe`,
  `implemented_by`.
* The reading of the Python source. Nothing was run: the tie between model and code is the citation at each definition.
* Semantics of external code as written in the model:
  * numpy: the functions in `Np.lean`, `MArr.lean`; FFTs are their defining sums; `einsum` is the sum over repeated indices;
    `histogramdd` is "half-open bins, the last one closed" on increasing edges; `isclose` with default tolerances.
  * scipy: `logsumexp` is `log Σ exp` with scipy's treatment of infinities; `stats.norm.cdf`/`logpdf` and `stats.beta.cdf` are
    Mathlib's measures; Legendre polynomials are Mathlib's shifted Legendre polynomials or scipy's recurrence as stated;
    `interp1d` is a parameter, with the parts of its contract used by a theorem as explicit hypotheses (shown to be
    satisfiable by `interp_exists`); `factorial2(-1)` is a parameter because it differs between releases.
  * Random numbers: an arbitrary sequence of draws; statements hold for each. C78 assumes, as a hypothesis of its theorems, that they are independent standard normal random variables; that numpy's generator delivers such is not modelled.
  * astropy/dill/npz: the bytes written and header values read are parameters.
  * matplotlib: only what is passed to it is modelled. `imshow` reads the first four numbers of `extent`; default origin `upper`.
  * The operating system: no symbolic links, permissions, quotas or concurrent processes; `open(.., "wb")` truncates; a write
    interrupted by a crash leaves a prefix.
  * Python's `float()` on decimal strings: the grammar in `Miles.lean`, without exponents and underscores.

### What is modelled

`tools/coverage.py` prints, for each function of `/repo/popkinmocks`, how many of its lines are cited by model comments.
All functions are covered except:

* `noise.py:24-25, 42-43`, `parametric.py:129-136, 165-178, 245-252`: abstract methods whose body is `pass`.
* `__init__.py`, `_version.py`, notebooks, documentation, tests.

Progress messages (`print`) are not modelled.

## 5. Where the code and the properties disagree

Each item is a theorem, with a witness.

* **C12** strings whose conditioners are not sorted are accepted with `density=False` and rejected with `density=True`
  (`C12_unsorted_accepted`, `C12_unsorted_density_rejected`).
* **C21** L-moments of order 3 and more are not translation invariant (`C21_translation_fails`; exact law `C21_affine`).
* **C23** spectra padded with `pad="ppxf"` give a longer datacube, and work with `batch="none"` only (`C23_padded_batches`).
* **C25** the default velocity grid (200 bins, ±1000) makes `evaluate_ybar` raise `IndexError` (`C25_symmetric`).
* **C27** light-weighted queries of a mixture accept unsorted and arbitrary strings (`C27_light_unsorted`); mixtures of mixtures raise
  `AttributeError` (`C27_nested`).
* **C29** conditional moments of a mixture are nan where one member is empty (`C29_fails_at_empty_members`).
* **C31** invalid parameters of the star-formation history are not all rejected (`C31_invalid_accepted`).
* **C32** probability outside the velocity range is lost, so parametric distributions over `v` sum to less than one
  (`C32_truncated`).
* **C34** `get_noncentral_moment("v_txz")` uses the centres at the first metallicity only (`C34_ignores_z_wrong`); with
  `factorial2(-1) = 0` the even moments are wrong (`C34_factorial2_wrong`); four of the methods `get_central_moment_v*` require an
  undocumented, unused argument (`C34_methods_mu`).
* **C35** the stored density is proportional to the probability of the bin, not to it divided by the width
  (`C35_normalised`, `C35_evaluate`).
* **C37** `rmax = 0` and pixels on the minor axis (`C37_zero_rmax`, `C37_on_minor_axis`).
* **C38** A stream whose two angles are equal is accepted and its density is nan in every pixel (`C38_equal_angles`).
* **C39** particles all out of range give a component of nan (`C39_nothing_in_range`).
* **C40** negative flux makes the shot noise raise `ValueError` (`C40_negative_flux`).
* **C43** the lowest edge can be moved above the lowest value (`C43_snapped`).
* **C44** `get_ssp` reads a stale index table after rebinning ages (`C44_rebinned_error`, `C44_rebinned_wrong`).
* **C46** a directory without cache raises `AttributeError` (`C46_no_cache`); repeated files can hide a hole (`C46_duplicates`).
* **C48** `get_variable_values`/`get_variable_edges` hand out the cube's own arrays, and the constructor keeps the caller's
  array (`C48_values_shared`, `C48_density_shared`).
* **C50** a failed construction with descending velocities spoils earlier cubes (`C50_failed`).
* **C51** saving is not atomic; without final slash the file lands beside the directory; the default directory raises
  `TypeError` (`C51_not_atomic`, `C51_no_slash`, `C51_default`).
* **C52** the rotation of the component frame is clockwise (`C52_axis`).
* **C53** ranges given as lists grow with each image (`C53_list_grows`, `C53_stale_extent`, `C53_mixed`).
* **C57** `bin_pixels` sums pixels `n//k` apart, and loses all when `k` divides `n` (`C57_not_adjacent`, `C57_divisible`).
* **C58** with the cache removed, `reset` keeps and stores truncated spectra (`C58_lost_cache`).
* **C60** tick marks are placed before rebinning (`C60_rebin_wrong`).
* **C61** spectra with as many resampled as tabulated wavelengths are drawn against the wrong axis (`C61_ambiguous`).
* **C62** `save_numpy` works for evaluated mixtures only (`C62_other`, `C62_unevaluated`).
* **C63** with an odd transform length the sampled frequencies are too large by `n / (n - 1)` (`C63_odd`, `C63_odd_wrong`).
  Parametric components use only the resolution of the SSPs; they neither use nor check the velocity bins of the cube, so
  the part of the distribution outside those bins is in the datacube (unlike C23).
* **C64** `get_mean("v_tx")` and `get_mean("v_txz")` hand out the component's own array (`C64_mean_shared`).
* **C68**, **C69** Covariances with the velocity are computed from the binned and truncated distribution of velocities but about the means
  of all stars, and correlations divide by dispersions of all stars: `get_correlation('tv')` is not between -1 and 1
  (`C68_correlation_wrong`, `C69_correlation_wrong`: above 40). L-moments of the velocity ignore stars outside of the velocity
  range without renormalising, so that the L-mean is not the mean (`C68_l_mean_wrong`).
* **C70** The default call `milesSSPs()` raises `AttributeError` (`C70_default_fails`): without limits the reader only looks for the cached
  file `all_spectra.npy`, which is not in the repository, and never reads the spectra.
* **C71** `delta_lmd` of a `modelGrid` divides by the number of wavelengths instead of intervals (`C71_spacing_wrong`; `milesSSPs` does
  it right). `modelGrid` itself lacks `par_mask_function` and cannot be constructed (`C71_base_class`). The reader without a directory
  is meant to list the directories but raises `AttributeError` (`C71_mod_dir`).
* **C72** The L-skewness is not between -1 and 1 (`C72_bound_fails`: stars in the single velocity bin from `s - 1` to `s + 1` have L-skewness
  `s`), and the L-dispersion of the velocity of a parametric component can be negative (`C72_dispersion_negative`).
* **C73** The table `get_log_p('tvxz')` of a parametric component misses the stars outside the velocity range: a component made from it has too
  few stars in every bin of every marginal without the velocity (`C73_parametric_lost`).
* **C93** `get_noncentral_moment` of a mixture is inherited and sums over the centres of velocity bins, whereas `get_mean` and
  `get_central_moment` of the same mixture are exact for parametric members: a mixture with velocity dispersion 0.1 has the second
  moment 1500 about its own mean on a grid with bins of 100 (`C93_velocity_wrong`).
* **C95** A mixture among the members of a mixture has no `log_p_tvxz`, so every distribution of the outer mixture raises
  AttributeError (`C95_distributions_raise`) and with it every light-weighted or conditional mean or moment (`C95_means_raise`);
  variances of velocities are wrong (`C95_velocity_wrong`).
* **C97** Light-weighted distributions of the velocity given anything but age and position, of parametric components and mixtures, contain
  the fraction of all light that is in the velocity range of the grid. Two disks that differ only in the velocities of their older stars
  give different distributions of the velocity of the youngest stars, one of them with a "probability" above 2 (`C97_velocity_wrong`).
* **C98** For the same reason the velocity distribution of equally bright stars of a parametric component is not the same by light and by
  mass (`C98_velocity_wrong`).
* **C99** Light-weighted `v_txz` and `v_tx` of a parametric component differ although velocity and metallicity are independent given age and
  position: `v_tx` is normalised over the velocity grid, `v_txz` is multiplied by the total light over the light in the velocity range
  (`C99_light_wrong`). Both are as in C32.
* **C101** `Stream.set_mu_v` at a pixel whose centre is exactly on the negative x-axis of the stream's frame: `arctan2` gives π there for a stream and for its mirror image, so the pixel is put at the end of a track at positive angles but at the start of its mirror image (`C101_on_the_cut`). Elsewhere streams are mirrored faithfully.
* **C102** The light weights count the last wavelength of the library and the datacube does not, and resampling changes the totals of the templates by different factors: a pixel can have light in `get_p('x', light_weighted=True)` and no flux (`C102_wrong`).
* **C103** The datacube of a parametric component shifts the band-limited continuation of the templates by fractions of a pixel. Next to narrow lines the continuation is negative, so a component with non-negative templates can have negative fluxes and `get_noisy_data` raises `ValueError` for both noise classes (`C103_negative`). For plain components whose number of velocity bins differs from the number of wavelengths nothing is proved: the transform is interpolated by a cubic of which the model assumes linearity, locality and exactness at the nodes and for constants only.
* **C105** `GrowingDisk.set_sig_v` and `set_t_dep` divide radii by the largest `|x|` of the pixel centres. The same calls on a cube with a smaller field of view give other stars in the same pixels (`C105_disk_wrong`). By light, distributions of velocity are normalised to the light of the whole field within the velocity range (C32), so they are not compared.
* **C106** `Stream.set_p_x_t` stores `theta_lims` before it rejects a wrong number of angles or radii or a negative `nsmp`: a program that
  catches the exception keeps the old track, and its next `set_mu_v` uses the angles of the rejected call (`C106_stream_wrong`).
* **C114** The L-dispersion counts two stars of the same bin as one bin width apart, although stars spread evenly over a bin are a third of that
  apart on average. A distribution within one bin has L-dispersion half the bin width (`C114_quarter_fails`), twice what any distribution within that
  range can have.
* **C84** `set_p_t` called again after the other setters leaves positions and velocities laid out between the start and end of the
  previous star-formation history (`C84_stale`), which in general is not what the same calls give in the other order (`C84_matters`).
* **C67** The constructor of `Mixture` copies the weights but keeps the user's list of components: replacing an entry of that list
  afterwards replaces a member of the mixture (`C67_list_shared`). Changing the length of the list afterwards is not modelled.
* **C66** Two parts of the claim are false, both with witnesses built from a disk and two stars.
  (a) Light-weighted `get_mean` given the velocity weights members with their share of the light of *all* stars, but the distributions
  it combines are normalised to the light in the velocity range, so that the weights do not add up to one
  (`C66_mean_given_velocity` gives the formula, `C66_mean_given_velocity_wrong` the witness).
  (b) `get_central_moment('v_txz', j)` hands the mixture's means to the members, and parametric members use those of the lowest
  metallicity for all metallicities: the first central moment is not zero (`C66_velocity_given_all_wrong`).
