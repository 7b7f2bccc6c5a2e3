# Formal model of zfit: design

This directory holds a Lean 4 model of parts of zfit (source in /repo, read as text, never run) and machine-checked proofs about it.

## Conventions

* `lean/Verif/<Area>/Model.lean` mirrors the code; every definition cites file and lines in /repo and names its simplifications.
* `lean/Verif/<Area>/Spec.lean` (where needed) holds the small independent vocabulary the theorems are stated in.
* `lean/Verif/<Area>/Lemmas.lean` holds helper lemmas, `lean/Verif/<Area>/Props.lean` the property theorems and, beside each, an `example` showing that its hypotheses are met by a concrete case.
* Python exceptions are values (`Except Err α` or a result type). Python `assert` failing is an exception value too.
* Floating point numbers are modelled by exact numbers (ℚ, a general ordered field, or ℝ when exp/log/sqrt are needed). Rounding, NaN (unless modelled explicitly) and infinities are out of scope.
* Random numbers, user callbacks and external libraries (TensorFlow, iminuit, scipy) are universally quantified parameters.
* If the code violates a property, the negation is proved on a concrete witness (theorem name ends in `_violated`), what does hold is proved under a `_partial` name, and the disagreement is listed below.

## Trusted base

* Lean 4.33.0's kernel.
* Axioms: only `propext`, `Classical.choice`, `Quot.sound` (checked with `#print axioms`). No own axioms, no `sorry`, no `native_decide`, no `bv_decide`.
* Mathlib's definitions used in statements (ordered fields, `List`, `Finset`, `Real`, interval integrals).
* The reading of /repo: the correspondence model/code is by inspection, definition by definition.

## What is modelled

| Directory under `lean/Verif` | Code modelled |
| --- | --- |
| `Common` | Python list/dict idioms, the exception types of util/exception.py |
| `Coord` | core/coordinates.py |
| `Space` | core/space.py: rectangular `Space` and `MultiSpace` (creation, reordering, subspaces, `inside`/`filter`, areas, addition, combination, equality, hashing, comparison) |
| `Space/Norm*` | the norm of a PDF at creation and in calls: core/basepdf.py (`_check_init_norm`, `_check_input_norm`), core/basemodel.py (`_check_input_norm`, `_check_input_limits`, `_convert_sort_space`) | rectangles in one piece |
| `Functor/ToTrunc*` | core/basepdf.py (`to_truncated`), models/truncated.py (defaults) | one observable; yields and names left out |
| `Dim` | core/dimension.py |
| `Param` | core/parameter.py (values, limits, `set_value(s)`, `assign_values`, temporary settings, randomise), util/temporary.py, core/baseobject.py (`get_params`, unique names); `set_value` and `value()` also in double precision with NaN and infinities |
| `Data` | core/data.py (cuts, weights, views, columns, `concat`, `SamplerData`, saving) |
| `Binned` | _data/binneddatav1.py, core/binning.py, util/binning.py, `to_binned`/`to_unbinned` |
| `Pdf` | core/basemodel.py and core/basepdf.py: hook dispatch of `pdf`, `log_pdf`, `integrate`, `ext_*`, `create_extended`, `set_yield` |
| `Functor` | models/functor.py, basefunctor.py (sum, product), truncated.py, cache.py, conditional.py, core/operations.py |
| `BinPdf` | core/binnedpdf.py hook dispatch and integration, models/histogram.py, template.py, histmodifier.py, binned_functor.py, unbinnedpdf.py; counts at given bins, pairing of bins in _loss/binnedloss.py, sampling with its law |
| `Loss` | core/loss.py, _loss/binnedloss.py |
| `Sample` | core/sample.py, sampling in core/basemodel.py; the law of the events (`Law*.lean`, real numbers, independent proposals and thresholds as a product measure) |
| `Run` | util/cache.py, util/graph.py, z/zextension.py (function cache), util/execution.py |
| `Min` | minimizers/evaluation.py, strategy.py, baseminimizer.py, termination logic of the tolerance updates |
| `Lm` | minimizers/minimizer_lm.py, the EDM criterion of termination.py |
| `Res` | minimizers/fitresult.py (flags, covariance, hesse, errors, `with`), minimizers/errors.py |
| `Num` | core/integration.py (Simpson, Monte Carlo, analytic registry), models/polynomials.py, models/basic.py (Exponential), z/unstable.py |
| `Phys` | models/physics.py |
| `Root` | util/root_search.py, util/improved_sheather_jones.py (fixed-point search) |
| `Constr` | core/constraint.py |
| `Kde` | models/kde.py (bandwidths, padding, exact and grid estimates), z/math.py (`weighted_quantile`, …) |
| `Dist` | models/dist_tfp.py (parameters handed to the library, normalisation, analytic sampling) |
| `Spline` | z/interpolate_spline.py, models/morphing.py, models/interpolation.py |
| `Diff` | z/math.py (numerical derivatives), derivative methods of core/loss.py (`BaseLoss`, `SimpleLoss`) |
| `Conv` | models/convolution.py (`FFTConvPDFV1`, `AddingSampleAndWeights`), `sum_samples` of core/data.py |
| `Wrap` | The outer loops of the Scipy, NLopt, Ipyopt and Minuit minimisers with `from_scipy`, `from_nlopt`, `from_ipopt`, `from_minuit`; their constructors' checks; the convergence criterion EDM. Not modelled: the libraries themselves, step sizes and internal tolerances handed to them (part of the arbitrary library), verbosity. |
| `Convert` | `BinnedFromUnbinnedPDF` (bins, counts, yields), `UnbinnedFromBinnedPDF` (density, integral, yield, sampling), /repo/zfit/models/tobinned.py, unbinnedpdf.py | observables in the same order; one box per space; the three ways of mapping over bins are one |
| `Args` | ComposedParameter, ComplexParameter, pickling, randomising and conversion of parameters (core/parameter.py); declared automatic gradients and evaluation at given values of the parameters (core/baseobject.py, core/loss.py, models/basefunctor.py, models/cache.py) | Composed parameters as functions of a store with Python signatures; the parameter object with raw and effective attributes; conversions with the counter of automatic names; trees of models with declared names; set, evaluate an arbitrary function, restore. Not modelled: tensors, TensorFlow variables, the registry of names (area Param). |
| `Unc` | Covariance, hesse and errors of fit results (minimizers/fitresult.py, minimizers/errors.py): the methods hesse_np, minuit_hesse and approx, the corrections for weights, the search for asymmetric errors | Real matrices; second derivatives and derivatives of the events as given functions (Minuit's own covariance as the exact one scaled by errordef), the root finder of scipy as an arbitrary sequence of points. Not modelled: numerical derivatives, the inversion of singular matrices, the Minos errors of Minuit. |
| `Part` | Partial integration: core/basemodel.py (partial_integrate, partial_analytic_integrate, partial_numeric_integrate), core/integration.py (mc_integrate for given x) | One event at a time; overridden methods as arbitrary functions; the numeric integration over one piece is exact for C137-C139 and the mean over an arbitrary sequence of points for C140-C141. Not modelled: chunked integration within a partial integral (chunking is off by default). |
| `Draw` | Sampling of composed PDFs: core/basemodel.py and core/basepdf.py (sample, _hook_sample), core/sample.py (extended_sampling), models/functor.py (SumPDF._sample, ProductPDF._sample), models/truncated.py (_sample) | A sample is a probability distribution of lists of events with countable values; multinomial, Poisson and shuffle are parameters with the properties in Draw/Spec.lean, which the concrete distributions in Draw/Cases.lean have. Only means are stated, not the joint distribution. Not modelled: the chunked and graph versions of the draws. |
| `Fun` | Functions: core/basefunc.py, models/functions.py, core/operations.py (multiply_param_func, multiply_func_func, add_func_func, convert_func_to_pdf), models/special.py (SimplePDF) | One event at a time; callables as arbitrary functions that answer or raise; a parameter is its name; limits are boxes. Not modelled: `obs` given to SumFunc and ProdFunc, composed parameters, ZFunc, limits with several pieces. |
| `Smp` | Samplers and histograms: _data/binneddatav1.py (BinnedSamplerData, BinnedHolder, from_hist, to_hist, with_variances, from_tensor), core/data.py (SamplerData), _variables/axis.py (new_from_axis), core/loss.py (the remembered hashes), core/parameter.py (values given by name or parameter) | Steps return the state at the point of failure. The sampling function and the hash are arbitrary functions; TensorFlow's assignment checks ranks (a variable created with unknown dimensions) and NumPy turns None into NaN: trusted. Not modelled: labels and names, weights as observables. |
| `Start` | The start of a minimisation: minimizers/baseminimizer.py (_check_convert_input), the first lines of all _minimize, core/parameter.py (assign_values), core/loss.py (SimpleLoss.from_any), minimizers/minimizers_scipy.py (options, initialisers, the loop of calls) | What SciPy answers, step sizes, tolerances and the number of turns are arbitrary. Not modelled: dictionaries of fields as params (area Args), the cut of values at limits (area Param), setters of the verbosity, updates of Hessians. |
| `Hs3` | Documents: serialization/serializer.py (to_hs3: names and variables; from_hs3, initialize), paramrepr.py, pdfrepr.py, models/basefunctor.py (FunctorPDFRepr, _preprocess_init_sum), models/functor.py (SumPDF, SumPDFRepr) | Objects are trees with parameters; what parameters hold and what constructors accept is arbitrary; addresses are arbitrary. Not modelled: pydantic, composed parameters, parameters without limits (written out), functors other than sums, JSON and YAML texts. |
| `Acc` | Results as containers: minimizers/fitresult.py (NameToParamGetitem, ListWithKeys, ParamHolder, ValuesHolder, freeze, covariance of what is known, Approximations, _covariance_approx, _input_convert_approx, from_nlopt (approximations), flags, status and message of __init__ and errors) | Dictionaries are association lists; matrices are elements of an arbitrary monoid; slices of values, info and printing are left out |
| `Own` | Classes and hooks written by users, PDFs made from PDFs: core/space.py (supports, check_norm, no_multiple_limits, param_args_supported), core/basemodel.py (_subclass_check_support, __init_subclass__, registries of integrals, SimpleModelSubclassMixin), core/basepdf.py (PDFMeta, to_binned, create_projection_pdf, as_func), models/tobinned.py and core/binnedpdf.py (constructors), models/truncated.py (arguments of the yield), models/special.py (ZPDF) | Python's binding of arguments is modelled for parameters with and without defaults, not for *args and **kwargs of the hook; multiple inheritance enters as the method resolution order; the conversion of values to parameters is left out |
| `Frame` | Data and tables: core/data.py (to_pandas, from_pandas, from_root, unstack_x, value by name and axis, __getitem__) | a DataFrame is its columns with different names, without index and dtypes; the ROOT file is a table of branches |
| `Limit` | Functional limits, binned spaces and the arguments of Space: core/space.py (Limit, _legacy_get_arguments_space, Space.__init__, inside, with_obs, with_limits, with_binning, get_subspace, extract_limits_from_dict, convert_to_space) | a function is a name with an arbitrary meaning; observables only, no axes, labels, ANY or vectorised limits; axes are their edges; products only of spaces without a common observable (the general case for rectangles is in `Space`) |
| `Plot` | Plotting: util/plotter.py (plot_model_pdfV1, PDFPlotter, SumCompPlotter) | exact numbers; a PDF is its label, observables, limits, density and yield; drawing is the list of points and the keyword arguments; defaults for ax, linestyle, plotfunc and plotkwargs are left out; plot_sumpdf_components_pdfV1 is the same loop |
| `Phys/Voigt` | Voigt profile: models/basic.py (Voigt), z/numpy.py (faddeeva_humlicek) | real and complex numbers instead of floating point; one element at a time |
| `Kde/Fft`, `Kde/Isj` | KDE by convolution and by the improved Sheather-Jones algorithm: models/kde.py (KDE1DimFFT, KDE1DimISJ, adaptive_factory), util/convolution.py, util/improved_sheather_jones.py | exact numbers; kernels are functions; the discrete Fourier transform is a circular convolution and tf.signal.dct/idct are their sums of cosines; the search for the root (_find_root) and the pilot density of the adaptive bandwidths are parameters; find_practical_support_bandwidth is never reached and left out |
| `Dill` | dill.py |
| `Io` | settings.py (seeds), integration options of core/basemodel.py, serialization/serializer.py (parameter replacement) |
| `Own/Integral*` | registered analytic integrals: integration.py (`AnalyticIntegral.register`, `integrate`, 686-745) | arguments as environments; what the function computes is a parameter |
| `Run/Warn*` | warnings given once: util/warnings.py, settings.py:134-150, zextension.py:308-321 | `DotMap` as a dictionary in which a look makes an entry; the filters of Python are left out |
| `Run/Cpu*` | CPUs and threads: util/execution.py (`set_n_cpu`, `set_cpus_explicit`, `n_cpu`) | TensorFlow as two numbers that cannot be changed after a computation |
| `Loss/New*` | Losses made from losses and their options: core/loss.py (BaseUnbinnedNLL.create_new, _check_init_options, the constant kept by check_precompile, SimpleLoss.create_new, register_convertable_loss, from_any, _simple_loss_constructor), _loss/binnedloss.py (create_new, the options of the chi2) | Arrays are refused or not, their conversion is not modelled; options are values of four kinds; the number of events decides on the kind of sum as a flag |
| `Sub` | checks when a class is defined: core/basemodel.py (`_subclass_check_support`, `__init_subclass__`, `SimpleModelSubclassMixin`), core/basepdf.py, core/binnedpdf.py, minimizers/baseminimizer.py (registered tables and checks) | functions are stacks of decorators; `_PARAMS` is a list |
| `Min/Sup*` | minimizers/baseminimizer.py (`minimize_supports`, `get_maxiter`, strategies in `create_evaluator`/`_call_minimize`), minimizers/strategy.py (`ToyStrategyFail`), minimizers/minimizers_scipy.py (`_VALID_SCIPY_*`) | results to start from are FitResults; strategies whose constructor raises are not modelled; one of the two lists of derivative methods |
| `Num` (Auto) | choice of the numeric integrator and its options: `core/basemodel.py` (`_auto_numeric_integrate`, `_fallback_partial_numeric_integrate`), `core/integration.py` (`auto_integrate`, `mc_integrate` with all branches) | real numbers; the Halton sequence, deviations and estimated errors are any functions; finite rectangular limits; method always AUTO |
| `Num` (Grad) | gradients of Monte Carlo integrals: core/integration.py (`mc_integrate`, `normalization_nograd`, `normalization_chunked` custom gradient) | one parameter; reverse mode as a value with a pull-back; real numbers |
| `Diff` (Tape) | automatic derivatives: z/math.py (`autodiff_gradient`, `autodiff_value_gradient`, `autodiff_hessian`, `automatic_value_gradient_hessian`), core/parameter.py (`Parameter.value`), models/cache.py (`get_value`) | functions are graphs of a few elementary operations; TensorFlow's rules (None for sources that nothing reaches) as documented; graph mode for cached PDFs; real numbers |
| `Label` | labels of spaces: core/space.py (`labels`, `label`, `with_*`, `get_subspace`, `combine_spaces`, `MultiSpace.labels`) | on top of `Space`; limits of products by axes are a parameter |
| `Zh` | helpers for functions of users: z/zextension.py (`safe_where`, `run_no_nan`, `nth_pow`), z/math.py (`poly_complex`), z/random.py (`sample_with_replacement`) | one value stands for everything not finite; elementwise functions; random integers are parameters |
| `Space` (MultiEq) | equality and hash of unions: core/space.py (`MultiSpace.__eq__`, `__hash__`, `equal_space`, `compare_multispace`), z/unstable.py (`allclose_anyaware`) | rectangular pieces |

## What is not modelled

* Rounding, overflow and (unless named) NaN of floating point numbers; dtypes; TensorFlow graph tracing beyond the decision whether a function is retraced.
* Asymptotic or stochastic quality of numerical methods (that Monte-Carlo converges, that a minimiser finds the minimum). The law of accept-reject samples is proved for independent proposals (limits in one piece) where the scaling covers the pdf (C268-C270); for limits in several pieces, whose numbers of proposals are fixed, only the expected numbers of events in one pass are (C274).
* The external libraries: iminuit, scipy, nlopt, ipopt, TensorFlow Probability distributions, dill, uhi/boost histograms. They appear as arbitrary functions or oracles; for the densities of the distributions (`Dist`) the formulas of the library's documentation are written down and trusted.
* The schemas of the serialised representations (serialmixin.py, pdfrepr.py, spacerepr.py), plotting, printing, deprecation warnings, logging, the `z.numpy` wrappers.
* Functional (non-rectangular) limits and `EventSpace`.

## Plan per property

* **C01 Reordering observables never re-pairs an observable with another axis** — `Coord, Space`: lists of (obs, axis) pairs; invariant: the zip of obs and axes of the result is a sub-relation of the original; induction over the list of requests. *Status: proved.*
* **C02 reorder_x moves whole columns by observable and is undone by the opposite call** — `Coord`: matrix as list of rows; gather by indices; pointwise statement by observable and inverse law. *Status: proved.*
* **C03 with_obs accepts or rejects exactly by the documented superset/subset rule** — `Coord`: mirror of the branches; iff-characterisation of each error. *Status: proved.*
* **C04 Equality of coordinates and spaces is an equivalence compatible with hashing** — `Coord, Space`: reflexive/symmetric proved; transitivity and hash compatibility refuted with witnesses. *Status: partial.*
* **C05 Space.inside / Space.filter select exactly the points within the limits** — `Space`: rectangular limit as list of (lower, upper); list filter spec. *Status: proved.*
* **C06 MultiSpace is the union of its pieces and its area is their sum** — `Space`: tree of additions; flattening, union, sum by structural induction. *Status: proved.*
* **C07 Combining spaces gives the cartesian product with consistent limits** — `Fun, Space`: fold over factors; membership iff by induction. *Status: partial.*
* **C08 Grouping by shared observables yields the connected components** — `Dim`: fold of the dictionary loop; partial theorem for non-bridging inputs plus refutation. *Status: partial.*
* **C09 Overlap of limits is detected independent of the order** — `Dim`: mirror of the loop; refutation for containment; soundness direction proved. *Status: partial.*
* **C10 A parameter's value never leaves its limits** — `Param`: state machine over one parameter; invariant for all op lists. *Status: proved.*
* **C11 set_value accepts a value exactly if it is within the limits up to the documented tolerance** — `Param`: exact iff over an ordered field. *Status: proved.*
* **C12 Temporary parameter settings are undone, in any nesting and on any exception** — `Param`: programs as a tree of nested `with` blocks with raise; induction on the program. *Status: proved.*
* **C13 set_values is all or nothing and touches only the named parameters** — `Param`: store as function; fold; refutation of atomicity, frame theorem. *Status: partial.*
* **C14 Values given by list, mapping or fit result reach the parameter they belong to** — `Param`: decision mirror, pointwise theorem. *Status: proved.*
* **C15 Parameter names are unique within a model tree** — `Param`: counting names. *Status: partial.*
* **C16 get_params returns exactly the parameters selected by its filters** — `Param`: dependency trees; set characterisation. *Status: proved.*
* **C17 Cutting data keeps exactly the events inside, with their own weights** — `Data`: zip/filter; alignment theorem. *Status: proved.*
* **C18 Data from columns and data from an array select the same events** — `Data`: column-wise cut vs row-wise cut; equality for single spaces; refutation for multi spaces. *Status: partial.*
* **C19 Reordered or sub-selected views of a dataset show the right columns** — `Data`: view = list of indices into columns; chain refinement. *Status: proved.*
* **C20 Concatenating datasets keeps all events, columns and weights** — `Data`: append/zip laws. *Status: partial.*
* **C21 A failed update of a sampler leaves it unchanged** — `Data`: state machine; refutation. *Status: partial.*
* **C22 Binned data reordered by with_obs keeps every bin content at its coordinates** — `Binned`: n-dim arrays as functions from index lists; permutation; partial for involutions, refutation for 3-cycles. *Status: partial.*
* **C23 Binning data conserves the weight inside the range and respects observables** — `Binned`: count per bin by filter; conservation; refutation for swapped observable order. *Status: partial.*
* **C24 Linear binning conserves total weight and first moment** — `Binned`: exact rational identity. *Status: proved.*
* **C25 Fractions of a SumPDF are a partition of one** — `Functor`: list arithmetic. *Status: partial.*
* **C26 A product PDF uses each factor once on its own observables** — `Functor`: valuation by observable name. *Status: partial.*
* **C27 A truncated PDF is zero outside and proportional inside** — `Functor, Own`: sum over limits. *Status: partial.*
* **C28 A cached PDF returns what the wrapped PDF would return** — `Functor`: state machine, refutation, partial for unchanged parameters. *Status: partial.*
* **C29 Evaluating a conditional PDF does not change parameters** — `Functor`: store passing semantics, refutation. *Status: partial.*
* **C30 Integration is additive over limits and normalised over the norm range** — `Pdf`: hooks as Option-returning parameters; dispatch mirrored with control-flow exceptions as values. *Status: proved.*
* **C31 log_pdf is the logarithm of pdf** — `Pdf`: as 30 over the reals, refutation on the fallback path. *Status: partial.*
* **C32 A pdf can be made extended only once and ext_pdf scales by the yield** — `Pdf`: state machine. *Status: partial.*
* **C33 Arithmetic between parameters, functions and pdfs follows one decision table** — `Functor`: finite decision table, complete case analysis. *Status: proved.*
* **C34 Histogram-like PDFs are normalised** — `BinPdf`: sums over flattened bins. *Status: partial.*
* **C35 Integrating a binned PDF over a range counts exactly the covered fraction of bins** — `BinPdf`: 1-d and product integration; covered fraction spec; refutation outside. *Status: partial.*
* **C36 Binned PDFs agree with their unbinned interface outside the binning** — `BinPdf`: padding with flow bins; refutation for log. *Status: partial.*
* **C37 Hooks overridden in a binned PDF are honoured** — `BinPdf`: hook dispatch; refutations. *Status: partial.*
* **C38 Adding losses adds their values** — `Loss`: sums over lists. *Status: partial.*
* **C39 The numerical offset of a likelihood never changes differences** — `Loss`: algebra. *Status: proved.*
* **C40 A loss pairs every model with its data or is rejected** — `Loss`: zip model; refutation. *Status: partial.*
* **C41 Chi-squared losses weigh each bin by its variance** — `Loss`: sum over bins; refutation. *Status: partial.*
* **C42 Accept-reject sampling returns exactly n accepted events inside the limits** — `Sample`: loop with an arbitrary oracle for random draws; invariant; fuel-free: statement about returned value. *Status: proved.*
* **C43 Sampling over several limits returns n events in total** — `Sample`: integer split arithmetic. *Status: proved.*
* **C44 The compiled-function cache is bounded and never returns another function's result** — `Run`: state machine over calls. *Status: partial.*
* **C45 Changing an object invalidates the caches of everything that depends on it** — `Run`: graph traversal with visited handling. *Status: proved.*
* **C46 Run modes set temporarily are restored** — `Run`: nested with-programs. *Status: partial.*
* **C47 Reserved CPUs are always given back** — `Run`: nested with-programs; refutation on exception. *Status: partial.*
* **C48 The evaluation budget of a minimiser is respected** — `Min`: state machine. *Status: partial.*
* **C49 NaN losses are pushed back by a growing penalty and given up after the tolerance** — `Min`: state machine. *Status: partial.*
* **C50 A minimiser leaves no trace when minimisation fails** — `Min`: mirror with exceptions; refutation. *Status: partial.*
* **C51 The stepping minimiser terminates and says valid only if converged** — `Min`: well-founded loop. *Status: proved.*
* **C52 A FitResult is valid only if it converged and no parameter is at its limit** — `Res`: decision logic. *Status: partial.*
* **C53 Covariance conversion between matrix and dictionary is lossless** — `Res`: functions on Fin n / lists. *Status: proved.*
* **C54 Covariance and hesse return what was asked for, whatever was asked before** — `Res`: state machine; refutation; partial for constant correction. *Status: partial.*
* **C55 with result: sets the fitted values and restores the previous ones** — `Res`: nested programs. *Status: partial.*
* **C56 compute_errors uses the requested confidence level also after finding a new minimum** — `Res`: recursion with oracle; refutation. *Status: partial.*
* **C57 Correlation matrices have unit diagonal and bounded entries** — `Res`: real matrices, Cauchy-Schwarz. *Status: proved.*
* **C58 Simpson integration is exact for cubic polynomials** — `Num`: list weights; induction on number of intervals. *Status: proved.*
* **C59 Monte-Carlo integration averages all batches equally and stops** — `Num`: fold; induction. *Status: proved.*
* **C60 The analytic integral used is the best registered one** — `Num`: registry state machine. *Status: partial.*
* **C61 Analytic integrals of the polynomial PDFs are the integrals of the polynomials** — `Num`: recurrences over the reals, HasDerivAt and the fundamental theorem; refutation for apply_scaling=False. *Status: partial.*
* **C62 Bernstein PDFs with non-negative coefficients are non-negative and interpolate the end points** — `Num`: induction on de Casteljau triangle. *Status: proved.*
* **C63 The numerical shift of Exponential has no observable effect** — `Num`: real analysis; state machine for the shift. *Status: partial.*
* **C64 Serialised models are restored with the same parameters** — `Io`: trees; round trip under no-collision; refutation with collision. *Status: partial.*
* **C65 Setting the seed makes every random source reproducible** — `Io`: oracle generators. *Status: proved.*
* **C66 Updating integration options either applies completely or not at all** — `Io`: mirror; refutation. *Status: partial.*
* **C67 The internal tolerance of a minimiser shrinks on every update** — `Min`: real inequality, induction. *Status: proved.*
* **C68 Binned data survives the conversion to unbinned data and back** — `Binned`: bin centres fall in their own bin; sum over bins. *Status: proved.*
* **C69 Copying a SumPDF keeps its fractions and yield** — `Functor`: constructor arguments rebuilt by `copy`; refutation. *Status: partial.*
* **C70 errors(sigma=s) gives the errors of s standard deviations** — `Res`: the arithmetic between `sigma`, `cl` and the rise of the loss over the reals; refutation. *Status: partial.*
* **C71 space1 <= space2 means that space2's limits contain space1's** — `Num, Space`: comparison of limits mirrored piece by piece; exact characterisation; refutation. *Status: partial.*
* **C72 Polynomial PDFs are linear combinations of the classical polynomials** — `Num`: the recurrences as written, folded over the coefficient list; compared with explicit formulas and Mathlib's `Polynomial.Chebyshev`; induction on the degree. *Status: proved.*
* **C73 The analytic integrals of the Crystal Ball family and of GaussExpTail are the integrals of the shapes** — `Phys`: piecewise real functions; antiderivative per region and additivity of interval integrals; case analysis on where the transition point lies. *Status: partial.*
* **C74 The Crystal Ball family and GaussExpTail are smooth positive peaks at the mean** — `Phys`: derivatives from the left and the right agree at every seam; sign of the derivative gives monotonicity. *Status: proved.*
* **C75 A root reported as found is a root inside the bracket** — `Root`: Brent's loop as a fuelled state machine over an arbitrary function; bracket invariant (sign change kept) by induction on the steps; intermediate value theorem for the last part; refutation without sign change. *Status: partial.*
* **C76 The Improved Sheather-Jones bandwidth solves the fixed-point equation of the method** — `Root`: the retry loop over brackets around the root search of C75; refutation. *Status: partial.*
* **C77 Levenberg-Marquardt never makes the loss worse** — `Lm`: the minimiser loop as a state machine over an arbitrary loss/gradient/Hessian oracle on ℝⁿ; invariant over the visited points; positive definite linear algebra for the step; refutations with NaN. *Status: partial.*
* **C78 A valid Levenberg-Marquardt result is close to a minimum** — `Lm`: the criterion as computed versus the one promised; refutation on a convex loss. *Status: partial.*
* **C79 A Gaussian constraint is the normal negative log-likelihood of the parameters and the observations** — `Constr`: real matrices; the code's Cholesky form versus the density (determinant and quadratic form); decision table for the constructor. *Status: partial.*
* **C80 Poisson and log-normal constraints are the documented likelihoods of the observation given the parameters** — `Constr`: real analysis (log-gamma, logarithm); refutation; what is computed instead is proved. *Status: partial.*
* **C81 Dumping with zfit.dill is verified, bounded and harmless to the rest of the file** — `Dill`: file and library calls as a state machine with an arbitrary schedule of failures; induction on the number of retries; refutations. *Status: partial.*
* **C82 Padding of a KDE mirrors each event at the border with its own weight and bandwidth** — `Kde`: the list operations of the padding versus a specification by reflection; permutation statements. *Status: partial.*
* **C83 The exact KDE is the weighted mean of normal kernels and a probability density** — `Kde`: mixture of normal densities over the reals; Mathlib's Gaussian integral; permutation and scaling laws. *Status: proved.*
* **C84 Linear binning onto the KDE grid preserves the total weight and the mean** — `Kde`: floor arithmetic on the grid; sum over the sample of a piecewise-linear function; induction on the sample. *Status: partial.*
* **C85 The rule-of-thumb bandwidths scale with the sample and follow the documented formula** — `Kde`: sorting, quantile and standard deviation as in the code, over the reals; equivariance by induction; refutations on rational samples. *Status: partial.*
* **C86 Adaptive bandwidths are proportional to the inverse root of the local density and scale with the sample** — `Kde`: real power laws, given the density estimate. *Status: proved.*
* **C87 The density of a wrapped distribution is its documented shape, normalised over the norm range** — `Dist`: the parameter maps as in the code, the formulas of the library from its documentation; each shown to be a constant times the documented shape over the reals; refutation for QGauss. *Status: partial.*
* **C88 Analytic samples lie inside the limits and follow the distribution restricted to them** — `Dist`: cumulative distribution and quantile as parameters related by the Galois property; Lebesgue measure of the set of random numbers whose event is below a bound. *Status: proved.*
* **C89 The probabilities of a Poisson PDF add up to one over its norm range** — `Dist`: sums over the integers in the range; refutation with an integer lower limit. *Status: partial.*
* **C90 Morphing between templates reproduces every template and keeps the totals** — `Spline`: real matrices for the linear system of the spline; the kernel r² log r is conditionally positive definite (second derivative in a shift is a Cauchy kernel, an integral of squares), so the system is solvable for every number of templates; the laws follow from linearity and uniqueness; refutations with three templates. *Status: partial.*
* **C91 A splined PDF interpolates the binned density** — `Spline`: the same system with r³ (an integral of squares of truncated linear functions plus terms that vanish); refutations with three bins. *Status: partial.*
* **C92 Numerical derivatives leave the parameters unchanged and do not depend on limits that are not crossed** — `Diff`: the library as an arbitrary tree of evaluations (what to ask next may depend on the values), the parameters as a store; refinement to the tree evaluated with a pure function, by induction on the tree; central differences over the rationals; refutations. *Status: partial.*
* **C93 The derivatives of a loss agree with each other and use the requested method** — `Diff`: decision logic with the derivative engines as parameters; case analysis over overridden methods; refutations. *Status: partial.*
* **C94 The convolution pdf is the function smeared by the kernel** — `Conv, Args`: both grids, the padded cross-correlation with the reversed kernel and the regular interpolation as functions over an ordered field with floor; sums reindexed to the distribution of a sum for every test function; moments as corollaries; refutations in general (width) and on a grid of nine points. *Status: partial.*
* **C95 Sampling from a convolution follows the distribution of the sum of independent events** — `Conv`: the proposals as lists, the accept-reject step from the sampling area; the distribution with Mathlib measures: convolution of a restricted measure restricted to the limits; refutation with point masses. *Status: partial.*
* **C96 Scipy, NLopt and Ipyopt: a result is valid exactly if the criterion is met within the budget** — `Wrap`: each outer loop as a recursion over at most 20 turns with the library, criterion and counter as arbitrary functions; invariants over the turns. *Status: proved.*
* **C97 Minuit: a valid result meets the criterion errordef * tol and the budget** — `Wrap`: the same for Minuit, with the evaluations counted; iminuit's goal from its documentation; refutations. *Status: partial.*
* **C98 Reported point, value and criterion belong together** — `Wrap`: the same loops, for a library that is honest about its values; refutations with a parabola. *Status: partial.*
* **C99 The reported point is inside the limits and not worse than the start** — `Wrap`: the same loops, for every predicate on points the library preserves; refutation with a parabola. *Status: partial.*
* **C100 After a failed run the fit goes on from elsewhere, and what was found is not lost** — `Wrap`: the same loops; independence of the restarts by induction; refutations. *Status: partial.*
* **C101 The algorithm and the derivatives that were asked for are used** — `Wrap`: decision logic; case analysis; refutations. *Status: partial.*
* **C102 Making a minimiser leaves the options of the user alone** — `Wrap`: decision logic over dictionaries as lists; refutations for every dictionary. *Status: partial.*
* **C103 The estimated distance to the minimum is the distance for a parabola** — `Wrap`: real matrices and vectors, linear algebra with Mathlib. *Status: proved.*
* **C104 A point that meets the criterion is near the minimum** — `Wrap`: the same; refutations at a saddle point. *Status: partial.*
* **C105 Binning a PDF integrates it over the bins** — `Convert`: meshgrid, flattening and reshaping of lists of edges over the rationals, the integral as an arbitrary function of boxes; the bins add up by induction over the axes, for every additive function. *Status: proved.*
* **C106 The counts of a binned PDF add up to its yield** — `Convert`: the same with the yields as options; refutation for every additive integral. *Status: partial.*
* **C107 Counts are yield times relative counts for every norm** — `Convert`: the hooks of binned PDFs (area BinPdf) with these two; whole bins by induction over the axes; refutation with the density 2x. *Status: partial.*
* **C108 A binned PDF made unbinned is a step function** — `Convert`: the wrapper around an arbitrary binned PDF of area BinPdf; coverage of bins rewritten as volumes. *Status: proved.*
* **C109 Making a PDF unbinned and binned again gives it back** — `Convert`: composition of both wrappers; the integral over one bin by induction over the axes. *Status: proved.*
* **C110 An unbinned PDF made from a binned one is normalised over its norm** — `Convert`: decision logic of the norms; refutation with a histogram of three bins. *Status: partial.*
* **C111 The yield of an unbinned PDF made from a binned one** — `Convert`: decision logic; refutation for every binned PDF. *Status: partial.*
* **C112 Sampling from an unbinned PDF made from a binned one** — `Convert`: lists of events for arbitrary random numbers; counting by bins, sortedness of repeated rows. *Status: partial.*
* **C113 A composed parameter is its function of the given parameters** — `Args`: signatures of Python functions as data with an arbitrary body, the choice of the call and the binding of arguments as functions; case analysis and lists. *Status: proved.*
* **C114 A composed parameter that could be created can be evaluated** — `Args`: the same; refutations for every body. *Status: partial.*
* **C115 A composed parameter reports what it depends on** — `Args`: composed parameters as nodes of the parameter graph of area Param; induction over lists of parameters; refutations. *Status: partial.*
* **C116 The values of complex parameters** — `Args`: real and complex numbers of Mathlib, values as functions of a store. *Status: proved.*
* **C117 A complex parameter that is not floating is constant** — `Args`: decision logic over the parts; refutation. *Status: partial.*
* **C118 A pickled parameter comes back the same** — `Args`: the parameter object with raw and effective limits and step size, over the rationals with infinite limits; case analysis; refutations for all parameters without limits or step size. *Status: partial.*
* **C119 Randomising a parameter** — `Args`: the same object with an arbitrary sampler; refutation. *Status: partial.*
* **C120 What numbers and parameters are converted to** — `Args`: decision logic with the counter of names as a state; distinct names by induction over sequences of conversions. *Status: proved.*
* **C121 Limits given to a conversion are respected** — `Args`: the same; refutations for all limits. *Status: partial.*
* **C122 Parameters without automatic gradient are refused** — `Args`: trees of models with declared names, the flags as options; mutual induction over trees; refutation for every daughter. *Status: partial.*
* **C123 Evaluation at given values of the parameters** — `Args`: the store of area Param, mappings as association lists, the evaluated function arbitrary; a loss with its memory of the offset; lists and uniqueness of clipped values. *Status: proved.*
* **C124 A rejected evaluation changes no parameter** — `Args`: the same; refutation with two parameters. *Status: partial.*
* **C125 The symmetric error is that of the parabola** — `Unc`: real matrices of Mathlib; the profile of a parabola by completing the square with the inverse matrix; refutation for every chi2 parabola. *Status: partial.*
* **C126 Covariance and hesse are those at the minimum** — `Unc`: fit results with the second derivatives as a function of the values; case analysis; refutation with a loss of degree four. *Status: partial.*
* **C127 Asking for uncertainties leaves the parameters as they are** — `Unc`: the values of the parameters before and after as functions; case analysis; refutation for every selection. *Status: partial.*
* **C128 Asymptotic correction of the covariance for weights** — `Unc`: lists of events with derivatives and weights, matrices as sums of outer products, derivative of the Poisson term by Mathlib; refutations for all weights and widths. *Status: partial.*
* **C129 Correction of the covariance by the effective sample size** — `Unc`: decision logic; refutations. *Status: partial.*
* **C130 Asymmetric errors are those of the profile of the loss** — `Unc`: the root finder as an arbitrary list of points, the evaluation with its counter as a state machine; induction over the list; parabolas as for C125; refutation with a loss of two parameters. *Status: partial.*
* **C131 The search for the errors starts within the limits** — `Unc`: recursion over the trials; induction. *Status: proved.*
* **C132 A binned likelihood is smallest where the model predicts the data** — `Loss`: the losses of area Loss; n - n log n is the minimum of m - n log m by the inequality for the logarithm of Mathlib; induction over bins and datasets. *Status: proved.*
* **C133 A chi-squared loss is zero exactly where the model predicts the data** — `Loss`: the same; sums of squares; induction. *Status: proved.*
* **C134 An extended fit gives the number of events as yields** — `Loss`: the same inequality for the yields, for any number of datasets. *Status: proved.*
* **C135 A fit range is the same as cutting the data** — `Loss`: filters of lists of weighted events; refutation for all data with events outside of the range. *Status: partial.*
* **C136 Events contribute to a likelihood independently of each other** — `Loss`: permutations and concatenations of lists of weighted events; induction. *Status: proved.*
* **C137 A partial integral that is returned is the right one** — `Part`: on top of area Pdf: overridden methods as arbitrary functions that answer or raise; the set of exceptions each stage may raise is tracked through all fallbacks. *Status: proved.*
* **C138 A partial integral over several pieces is the sum over the pieces** — `Part`: the same; refutation for every PDF without analytic partial integral. *Status: partial.*
* **C139 partial_numeric_integrate gives the numeric partial integral** — `Part`: the same; refutation for every PDF. *Status: partial.*
* **C140 A numeric partial integral matches observables by name** — `Part`: dictionaries by name as association lists, the mean of area Num (Monte Carlo); lemmas about sorting and merging columns by induction. *Status: proved.*
* **C141 A partial integral integrates over its limits whatever further observables the event has** — `Part`: the same; refutation for every function and event. *Status: partial.*
* **C142 The number of events to sample is taken as documented** — `Draw`: decision logic; refutation for all strings. *Status: partial.*
* **C143 Extended sampling follows yield times PDF** — `Draw`: samples as probability distributions (PMF) of lists of events, the expected count of an event as a sum in the extended non-negative reals; Poisson and multinomial draws as parameters with the means the libraries guarantee; induction over trees of PDFs. *Status: partial.*
* **C144 A sample of a sum follows the sum** — `Draw`: the same; linearity of the expectation, induction over the components. *Status: proved.*
* **C145 A sample of a sum in narrower limits follows the sum there** — `Draw`: the same; conditional probabilities; refutation on three points. *Status: partial.*
* **C146 A sample of a truncated PDF follows the PDF inside its limits** — `Draw`: the same; sums over disjoint limits. *Status: proved.*
* **C147 The columns of a sample of a product are those of its factors** — `Draw`: tables with names of columns, concatenation of rows by induction over the groups of factors (area Functor); refutations. *Status: partial.*
* **C148 A sample of a product has as many events as asked for** — `Draw`: the same; refutation with two boxes. *Status: partial.*
* **C149 The value of a formula of functions** — `Fun`: formulas as trees, the objects made of them as a second inductive type; the value of a formula as specification; induction over trees with lists. *Status: proved.*
* **C150 A formula of functions reports its parameters** — `Fun`: the same; two assignments of values that agree on the reported parameters; refutations. *Status: partial.*
* **C151 A function as PDF** — `Fun`: the same; dictionaries of keywords. *Status: partial.*
* **C152 Formulas of functions keep the limits** — `Fun`: the same; boxes as dictionaries; induction over trees. *Status: partial.*
* **C153 The analytic integral of a sum of functions** — `Fun`: an arbitrary additive integral; lists; refutation with the integral of Mathlib. *Status: partial.*
* **C154 Copying a function** — `Fun`: the dictionary of parameters as state; refutation for all functions. *Status: partial.*
* **C155 Updates of a binned sampler are all or nothing** — `Smp`: the sampler as a state machine whose steps return the state at the point of failure; refutations for all samplers. *Status: partial.*
* **C156 A binned sampler has one content for each bin** — `Smp`: the same; invariant by induction over histories; refutation. *Status: partial.*
* **C157 Binned data given to a binned sampler fills the same bins** — `Smp`: the same; contents by name of observable; refutations. *Status: partial.*
* **C158 What resample samples with** — `Smp`: the same; dictionaries by name, the value given last as specification; invariant over histories. *Status: proved.*
* **C159 A loss notices that its data has changed** — `Smp`: the hashes remembered by a loss as state, an arbitrary hash function; refutation by the pigeonhole principle for every hash function. *Status: partial.*
* **C160 Binned data and histograms** — `Smp, Hs3`: axes as an inductive type, round trip; refutation for all data without variances. *Status: partial.*
* **C161 Variances of binned data** — `Smp`: real numbers and the root of Mathlib; refutation for all contents but 0 and 1. *Status: partial.*
* **C162 The events of a sampler are inside its limits** — `Smp`: the unbinned sampler as a state machine; invariant over histories; refutation. *Status: partial.*
* **C163 A data set given to an unbinned sampler** — `Smp`: the same, with the data sets of area Data. *Status: proved.*
* **C164 A sampler that could be created can be resampled** — `Smp`: the same; refutations. *Status: partial.*
* **C165 What a minimisation varies** — `Start`: the conversion of the arguments function by function, parameters as trees (area Param); reachability as specification. *Status: proved.*
* **C166 Start values without a result to start from** — `Start`: the same; the value given for a parameter as a relation; frame for all others. *Status: proved.*
* **C167 Start values with a result to start from** — `Start`: the same; refutation. *Status: partial.*
* **C168 The result to start from may have other parameters** — `Start`: the same; refutation for all results that lack a parameter. *Status: partial.*
* **C169 Minimisers can be chained in any order** — `Start`: the initialisers of the SciPy minimisers and the kinds of info["original"]; refutation for all options and fits. *Status: partial.*
* **C170 A minimiser can be used again** — `Start`: the loop of calls with the shared dictionary of options, over histories of fits; refutations. *Status: partial.*
* **C171 Options given to a SciPy minimiser are used** — `Start`: the same; frame over histories; refutation for all fits. *Status: partial.*
* **C172 A call of minimize that is refused changes nothing** — `Start`: the conversion returns the state at the point of failure; refutations. *Status: partial.*
* **C173 Forms of start values** — `Start`: the same; refutation for all arrays. *Status: partial.*
* **C174 Objects of the same name are all saved** — `Hs3`: the loop that makes names, with arbitrary addresses; refutation for all names. *Status: partial.*
* **C175 Loaded objects share parameters by name** — `Hs3`: objects as trees with parameters, the process as a list of parameters and the dictionary of known ones; invariant over the load, by mutual induction over trees. *Status: proved.*
* **C176 reuse_params is honoured** — `Hs3`: the same. *Status: proved.*
* **C177 Loads do not influence each other** — `Hs3`: the same; invariant over histories of loads that may fail. *Status: proved.*
* **C178 Objects that are saved and loaded keep their parameters** — `Smp, Hs3`: saving added; round trip up to renaming of parameters; refutation. *Status: partial.*
* **C179 Loading leaves the document as it was** — `Hs3`: JSON documents of area Io; refutation for all documents with an observable. *Status: partial.*
* **C180 A document can be loaded again** — `Hs3`: the same; idempotence. *Status: proved.*
* **C181 PDFs that are saved and loaded have the same density** — `Hs3`: basic PDFs and sums as a mutual inductive type, densities as functions; round trip by mutual induction; refutation. *Status: partial.*
* **C182 PDFs that are saved and loaded have the same yield** — `Hs3`: the same; refutation for all sums of extended PDFs. *Status: partial.*
* **C183 Entries of a result by parameter and name** — `Acc`: a result as a record with association lists; refinement to a dictionary by name over all histories of operations. *Status: proved.*
* **C184 Values of a result by parameter, name and position** — `Acc, Min`: the same; the list and the dictionary below the values; refutations. *Status: partial.*
* **C185 Freezing keeps what a result knows** — `Acc`: the same; freezing as renaming of keys, by an invariant over histories and injectivity of the names. *Status: proved.*
* **C186 Freezing works or changes nothing** — `Acc`: the same; the attributes replaced one after the other with the exceptions between; refutation. *Status: partial.*
* **C187 The gradient in the order asked for** — `Acc`: the sorting of indices as in the code; shown to be the positions of the parameters asked for, by permutation and sortedness; refutations. *Status: partial.*
* **C188 Hessian and inverse Hessian fit together** — `Acc`: calls as a state machine over an arbitrary monoid with a partial inverse; invariant over sequences of calls; refutation. *Status: partial.*
* **C189 The approximate covariance belongs to the parameters** — `Acc`: the dictionary comprehension; refutation. *Status: partial.*
* **C190 Where the approximations of a result come from** — `Acc`: the filling of the mapping case by case; refutations. *Status: partial.*
* **C191 Making a result leaves the mapping of approximations alone** — `Acc`: the same, with the mapping as it is afterwards; refutation. *Status: partial.*
* **C192 A result that is not valid says why** — `Acc`: flags and message as a record; decision logic and induction over calls; refutations. *Status: partial.*
* **C193 A hook is called only with norms it declared** — `Own`: methods as signatures with a body from environments to outcomes; binding of arguments and the three decorators as functions on calls that note each run of the body; equation for all calls, by induction over the keyword arguments; refutations. *Status: partial.*
* **C194 A hook is called only with limits it declared** — `Own`: the same. *Status: proved.*
* **C195 A hook is called once, with the parameters if it wants them** — `Own`: the same; refutation. *Status: partial.*
* **C196 Hooks without the decorator are refused** — `Own, Sub`: a class as the list of dictionaries of its method resolution order; decision logic over the registries; refutation. *Status: partial.*
* **C197 Registered integrals belong to one class** — `Own`: registries as objects that classes refer to; refinement over all histories of statements. *Status: proved.*
* **C198 The parameters of a simple PDF are those declared** — `Own, Sub`: keyword arguments as association lists that are consumed; by induction over _PARAMS. *Status: proved.*
* **C199 ext_log_pdf is the logarithm of ext_pdf** — `Pdf`: added to the model of pdf; in terms of the logarithm over the reals; refutation. *Status: partial.*
* **C200 Binned observables give a binned PDF** — `Own`: the metaclass with an arbitrary constructor; decision logic; refutations. *Status: partial.*
* **C201 The yield of a truncated PDF depends on all its parameters** — `Own, Functor`: the loop with a bound on its rounds; refutation for every bound by induction. *Status: partial.*
* **C202 A projection integrates over exactly the other observables** — `Own`: observables with limits as association lists; decision logic over all cases; refutations. *Status: partial.*
* **C203 A PDF as a function** — `Own`: PDFs as trees; refutation. *Status: partial.*
* **C204 Data to a table and back** — `Frame`: tables as lists of columns on top of the model of data; round trip; refutation. *Status: partial.*
* **C205 Data from a DataFrame** — `Frame`: the same; in terms of the points the table shows; refutations. *Status: partial.*
* **C206 Data from a file with names for the branches** — `Frame`: the same, with a tree of branches as a table; refutation. *Status: partial.*
* **C207 All ways of reading data agree** — `Frame`: reads as a state machine (reading changes how the data is stored); invariant over all sequences; refutations. *Status: partial.*
* **C208 Limits given by a function** — `Limit`: limits dictionary with keys of several observables, functions as parameters; invariant over histories; refutation. *Status: partial.*
* **C209 Subspaces of limits given by functions** — `Limit`: the same; decision logic and the conditions that remain. *Status: proved.*
* **C210 The ways to give a rectangle agree** — `Limit`: the arguments as values before they are sorted out; equality of the results of the constructor. *Status: proved.*
* **C211 The bins of a space cover its limits** — `Limit`: axes with their edges; invariant over histories; refutations. *Status: partial.*
* **C212 convert_to_space gives what is asked for** — `Limit`: decision logic over all cases; refutation. *Status: partial.*
* **C213 Combining unions of spaces** — `Space`: the loop over the cartesian product on top of the model of combine_spaces; refutations. *Status: partial.*
* **C214 The binning of a part of a space** — `Limit`: on the model of C211; refutation. *Status: partial.*
* **C215 Limits given incompletely or twice are refused** — `Limit`: decision logic; refutations. *Status: partial.*
* **C216 The curve drawn is the density** — `Plot`: the points handed to the plotting function as lists; specification of the curve point by point. *Status: proved.*
* **C217 The height of a curve does not depend on the range drawn** — `Plot`: the same; refutations with a PDF of two observables and with another observable. *Status: partial.*
* **C218 The components drawn add up to the sum** — `Plot`: the loop over the components; sums point by point; refutations. *Status: partial.*
* **C219 Options for plotting are used as given** — `Plot`: options as a record, defaults as updates of it, the dictionary of the caller as part of the result; refutations. *Status: partial.*
* **C220 The Voigt profile is symmetric and scales** — `Phys`: over the complex numbers: the approximations commute with the reflection at the imaginary axis. *Status: proved.*
* **C221 The Voigt profile is defined everywhere** — `Phys`: all zeros of the denominators are real: sign changes, intermediate values and the number of roots. *Status: proved.*
* **C222 The Voigt profile is positive** — `Phys`: the approximation far away is a continued fraction with positive coefficients; refutation by exact computation. *Status: partial.*
* **C223 The FFT estimate is the mean of the kernels on its grid** — `Kde`: the convolution as a sum over grid points, the linear binning of C84 and the interpolation; refutation by exact computation. *Status: partial.*
* **C224 The FFT estimate does not depend on the unit** — `Kde`: grid, binning, kernel and interpolation are each equivariant; refutation by exact computation. *Status: partial.*
* **C225 The FFT estimate is a density of the size of its kernel** — `Kde`: convexity of the interpolation on top of C223. *Status: proved.*
* **C226 Away from the sample the FFT estimate is zero** — `Kde`: on top of C223; refutations. *Status: partial.*
* **C227 The choice of fft_method does not change the estimate** — `Kde`: lengths of the padded arrays; refutations. *Status: partial.*
* **C228 The ISJ estimate is the smoothed sample** — `Kde`: the cosine transforms are inverse to each other (kernel of Dirichlet); the characteristic function of the normal distribution. *Status: proved.*
* **C229 The ISJ bandwidth is the width of the smoothing** — `Kde`: on top of C228: a refutation for all samples. *Status: partial.*
* **C230 The ISJ estimate does not depend on the unit** — `Kde`: grid, binning and transforms are equivariant; refutations. *Status: partial.*
* **C231 Adaptive bandwidths follow the density of the weighted sample** — `Kde`: on the formulas of C86 with the pilot density as a parameter; refutation for all weights. *Status: partial.*
* **C232 A registered integral is called once and its errors reach the user** — `Own`: the wrappers of the registration and the four calls as functions of signatures and environments, on top of the model of C200; refutation. *Status: partial.*
* **C233 A registered integral that supports norms gets the norm** — `Own`: the same model; refutation with a default. *Status: partial.*
* **C234 A warning is given at most once** — `Run`: a state machine of settings and identifiers, induction over the history. *Status: proved.*
* **C235 A warning is switched off only by its setting** — `Run`: the same machine; invariant relating the settings to what was last set; refutation. *Status: partial.*
* **C236 The warning about functions removed from the cache is given once** — `Run`: the counter as a dictionary; induction over the removals; refutation for every number of removals. *Status: partial.*
* **C237 The number of CPUs is the one last asked for** — `Run`: a state machine of CPUs and threads, induction over the history. *Status: proved.*
* **C238 Asking for CPUs in vain changes nothing** — `Run`: the same machine; refutation. *Status: partial.*
* **C239 The number of threads follows the number of CPUs** — `Run`: the same machine; refutations for all histories. *Status: partial.*
* **C240 The warning about a feature that will change is given once** — `Run`: the machine of C234; refutation. *Status: partial.*
* **C241 create_new replaces what is given and keeps the rest** — `Loss`: on top of the model of the constructors (C16); refutations for all losses. *Status: partial.*
* **C242 Losses made from one another can be compared** — `Loss`: the shift by the constant as a function of the data and constraints alone, for the six classes; refutations. *Status: partial.*
* **C243 create_new of a SimpleLoss replaces what is given and keeps the rest** — `Loss`: the constructor as a function; refutations for all functions. *Status: partial.*
* **C244 The options of a loss belong to it** — `Loss`: a heap of dictionaries with references, invariant over all histories. *Status: proved.*
* **C245 Making and using losses leaves the user's options alone** — `Loss`: the same heap; refutation. *Status: partial.*
* **C246 Options have the value given or else the default** — `Loss`: the same heap; lookups in the completed dictionary. *Status: proved.*
* **C247 A function is converted by the converter of the highest priority that takes it** — `Loss`: the list of converters under registration is sorted and stable; induction over the registrations. *Status: proved.*
* **C248 A function becomes a loss or is refused** — `Loss`: the same list; refutation. *Status: partial.*
* **C249 A PDF class is accepted exactly if its methods say what they support** — `Sub`: Classes as the dictionaries of their method resolution order, functions as stacks of decorators; the loop of the check by induction over the registered names, acceptance characterised by an equivalence. *Status: proved.*
* **C250 A minimiser class is accepted exactly if _minimize says what it supports** — `Own, Sub`: As C249 with the table of minimisers. *Status: proved.*
* **C251 A binned PDF class is accepted exactly if its methods say what they support** — `Sub`: As C249; refuted, because nothing calls the check of binned PDFs. *Status: partial.*
* **C252 A model with _PARAMS has exactly the parameters it lists** — `Own, Sub`: `_PARAMS` along the method resolution order, `kwargs.pop` by induction over the names; an instance is characterised by an equivalence. *Status: proved.*
* **C253 A minimiser gets a result to start from only if it says that it can use it** — `Min`: The decorator as a function on backends of the model of C50; equality of runs, where for unsupported results two backends that agree without a result are exchanged. *Status: proved.*
* **C254 The result of a minimisation comes from that minimisation** — `Min`: Histories of minimisations with the stored result of a strategy instance as state; induction over the history. *Status: partial.*
* **C255 The limit on iterations is the one given** — `Min`: Direct model of get_maxiter. *Status: partial.*
* **C256 A Scipy minimiser can be subclassed and accepts the derivative methods added to it** — `Min, Acc`: Heap of sets and classes with method resolution order; invariant by induction over the history of definitions and additions. *Status: partial.*
* **C257 Numeric integrals over one observable are exact for cubic polynomials** — `Num`: Model of `_auto_numeric_integrate` and `auto_integrate` on top of the models of the integrators (`Num/AutoModel.lean`); the theorem follows the options through the choice of the integrator to the Simpson rule. *Status: proved.*
* **C258 Numeric integrals lie between the bounds of the function times the volume** — `Num`: Each branch of `mc_integrate` gives the mean of the function at points within the limits (from C59), Simpson has non-negative weights that sum to the length (from C58); sums over pieces by induction. *Status: proved.*
* **C259 The number of evaluations in a numeric integral is bounded by the options** — `Num`: The model returns the number of points with the value; bounds per piece, then induction over the pieces. *Status: proved.*
* **C260 The integration options of a model hold for its partial integrals** — `Num`: Counterexample: with `max_draws=100` a partial integral takes 40000 points per event; and no integral depends on `mc_sampler`. Bounds by the defaults as partial result. *Status: partial.*
* **C261 The Poisson term of an extended likelihood is the Poisson probability** — `Loss`: The constant of `tf.nn.log_poisson_loss` (as documented) is bounded against the logarithm of the factorial with Mathlib's Stirling sequence (telescoping bound and limit); then the value of the extended likelihood from C35. *Status: proved.*
* **C262 The gradient of a Monte Carlo integral is the derivative** — `Num`: Numbers with a pull-back (`Num/GradModel.lean`); the recorded integral is compared with the derivative of the mean over the points, piece by piece. *Status: proved.*
* **C263 Chunking does not change the gradient** — `Num`: The same model with the custom gradient that drops the incoming derivative; refuted, with the exact condition under which it is right. *Status: partial.*
* **C264 The automatic gradient is the derivative at the values of the parameters** — `Diff`: Expressions with the backward rules of the tape (`Diff/TapeModel.lean`); by induction over the expression, what reaches a parameter is the incoming derivative times the partial derivative. *Status: proved.*
* **C265 A smooth function has an automatic gradient** — `Diff`: The same model; returned if and only if every parameter is read and no cached PDF depends on one; refuted for a parameter that is not read. *Status: partial.*
* **C266 The automatic Hessian is the symmetric matrix of second derivatives** — `Diff`: The recorded gradients are smooth near the point and equal the partial derivatives there; symmetry from Mathlib's symmetry of second derivatives. *Status: proved.*
* **C267 Where there is a gradient there is a Hessian** — `Diff`: Second gradients that nothing reaches are zero; returned where there are non-zero entries, refuted for a linear function. *Status: partial.*
* **C268 Samples with a known maximum follow the pdf** — `Sample`: The loop model over the reals with random streams of proposals and thresholds (`Sample/LawSpec.lean`); all passes are flattened to a sequence of accepted trials, the law of the first n of which is summed over the positions of the accepted ones. *Status: proved.*
* **C269 Every proposal is accepted with a probability proportional to the pdf** — `Sample`: One pass of the same model with arbitrary proposals; the set of thresholds that leads to a pattern of accepted proposals is a box. *Status: proved.*
* **C270 Samples follow the pdf by default** — `Sample`: As C268 from a state whose scaling covers the pdf; refuted by a pdf with a peak of width 1/3000000 and height 30000000. *Status: partial.*
* **C271 with_weights replaces the weights and nothing else** — `Data`: The model of data of C17; the number of entries of a dataset in either storage is the number of the events it holds. *Status: proved.*
* **C272 set_weights until the end of the block** — `Data`: The same model with an assignment without check; the block is an arbitrary function. *Status: partial.*
* **C273 Proposals are spread over the pieces by volume** — `Sample`: Induction over the pieces for the rounded shares; the scaled product measure for the uniform law (`Sample/LawPieces.lean`). *Status: proved.*
* **C274 Samples on limits in several pieces follow the pdf** — `Sample`: The expectation as a sum of integrals over the trials in each piece; refuted by rounding down in every pass of at most 800000 proposals. *Status: partial.*
* **C275 Samples on several limits follow the pdf** — `Sample`: The multinomial draw as the counts of independent labels; a sample with given counts is a permutation of one with given labels, and the product of the mixture is the mixture of the products (`Sample/LawLimits.lean`). *Status: proved.*
* **C276 Samples of wrapped distributions follow the distribution** — `Dist`: The law of the quantile of a uniform number is compared on half lines; products for n events; C275 for several intervals (`Dist/Law.lean`). *Status: proved.*
* **C277 Sampling with a registered inverse integral** — `Sample`: The law of the inverse of the integral at a uniform number, compared on half lines; products for n events (`Sample/Inverse.lean`). *Status: proved.*
* **C278 Which way of sampling is taken** — `Sample`: The order of the ways as a decision over their outcomes. *Status: proved.*
* **C279 Counts of a binned PDF at given bins** — `BinPdf`: The contents in the own bins are given; `counts(x)` is modelled with its `with_obs` and `move_axis_obs` (`BinPdf/AtModel.lean`), and compared by name of observable and bounds of the bin. Refuted for cyclic orders and other binnings. *Status: partial.*
* **C280 Binned losses compare like with like** — `BinPdf`: The same model with the elementwise product of the losses and its broadcasting; refuted for other edges and (chi2) a single bin. *Status: partial.*
* **C281 Law of binned samples** — `BinPdf`: Counts of independent draws are multinomial by induction over the draws; a Poisson number of draws gives independent Poisson counts (`BinPdf/DrawLaw.lean`). *Status: proved.*
* **C282 Binned samples at given parameters** — `BinPdf`: The same model; the number of events is drawn before the values are set; refuted by comparing the probabilities of no event. *Status: partial.*
* **C283 Binned samples in given limits** — `BinPdf`: The same model with the limits compared without their binning; refuted by two bins with other edges. *Status: partial.*
* **C284 The norm given to a PDF** — `Space`: The model of `Space` (C01) with the conversions of the norm (`Space/NormModel.lean`); limits are compared by name of observable. *Status: proved.*
* **C285 A norm in a call is the norm of the PDF** — `Space`: The same model; the range of a call is compared with the range of a PDF created with that norm. Refuted for limits of two observables as numbers and for spaces with some of the observables. *Status: partial.*
* **C286 to_truncated is TruncatedPDF** — `Functor`: The truncated density of C27 with the defaults of both ways of creation (`Functor/ToTruncModel.lean`); refuted for another space without a norm. *Status: partial.*
* **C287 Equality of unions of limits** — `Space`: The model of unions (C06) with the table of comparisons of the pieces (`Space/MultiEqModel.lean`); the answer is characterised by the boxes the unions were built from. Refuted by the relative tolerance (not symmetric, not that of spaces), repeated pieces and hashes. *Status: partial.*
* **C288 safe_where takes one branch and keeps its gradient clean** — `Zh`: Numbers with a value for "not finite", functions with their pull-backs, the gradient of `tf.where` written out (`Zh/Model.lean`). *Status: proved.*
* **C289 run_no_nan replaces what is not finite by zero** — `Zh`: The two calls, the gather and the scatter of the code; induction over the positions. *Status: proved.*
* **C290 Powers and complex polynomials** — `Zh`: The loop of products and the sum of terms in a commutative ring. *Status: proved.*
* **C291 Sampling with replacement from a tensor** — `Zh`: Tensors as shape and elements by multi-index; the drawn integers are arbitrary. *Status: proved.*
* **C292 Which bandwidth a KDE uses** — `Kde`: The constructors up to the bandwidth with the padding of C82 (`Kde/BwModel.lean`); rules and grids are arbitrary functions. Refuted for arrays on grids and for the reported parameter. *Status: partial.*
* **C293 Labels stay with their observables** — `Label`: The dictionary of labels on top of the model of `Space` (`Label/Model.lean`); a simulation with the space without labels, by induction over the requests. *Status: proved.*
* **C294 Labels in products and unions of spaces** — `Label`: The merging of the dictionaries in `combine_spaces` and the labels of `MultiSpace` (`Label/Props.lean`); refuted by default labels, axes only and unions. *Status: partial.*
* **C295 The improved Sheather-Jones bandwidth solves the equation of Botev et al.** — `Kde`: The smoothed sample as a cosine series, its iterated derivatives and their integrals with Mathlib (`Kde/IsjNorm.lean`), compared with the sums of the code. Refuted: every norm is too small by a factor of four. *Status: partial.*
* **C296 set_value in double precision** — `Param`: Floating point numbers with NaN and infinities, rounding as any function to the nearest number of 53 bits (`Param/Rounding.lean`, `Param/FloatModel.lean`; existence of such a rounding is proved). Refuted for NaN, large or equal limits and graph mode. *Status: partial.*
* **C297 assign clips to the limits in double precision** — `Param`: The same model; exactness by the lemma of Sterbenz. Refuted by cancellation in `t + (clip(t) - t)` and for infinite values. *Status: partial.*
* **C298 Data that is saved and loaded is the same data** — `Data`: Data as in `Data/Model.lean` with name and label; the document with one space per observable; saving and loading as functions that may raise (`Data/SaveModel.lean`). Refuted for missing limits, unions, guaranteed limits and labels. *Status: partial.*
* **C299 A Gaussian constraint that is saved and loaded is the same constraint** — `Constr`: The arguments of the constraint with the kind of object they are, the fields of the document and the constraint of `Constr/Model.lean` (`Constr/SaveModel.lean`). Refuted for matrices and for `sigma` that is not a list. *Status: partial.*
* **C300 A likelihood that is saved and loaded has the same value** — `Hs3`: The likelihood over the PDFs of `Hs3/DocModel.lean` and the data of C298 (`Hs3/LossModel.lean`); the value as a real number. Refuted for fit ranges and options. *Status: partial.*
* **C301 The grouping and order of a sum make no difference** — `Functor`: Formulas of `SumPDF`s as trees on top of `Functor/SumModel.lean` (`Functor/GroupModel.lean`); by induction over the tree the density is the sum over all leaves with the products of the fractions. *Status: proved.*
* **C302 The grouping and order of a product make no difference** — `Functor`: Formulas of `ProductPDF`s as trees on top of `Functor/ProductModel.lean` (`Functor/ProdGroupModel.lean`); by induction over the tree; the integrals with the factorisation proved for C26. *Status: proved.*
* **C303 The density of a conditional PDF is that of the wrapped PDF with the parameters of the event** — `Functor`: The loop of `Functor/CondModel.lean` behind the sorting of the data of `Data/Model.lean` (`Functor/CondObsModel.lean`); the expected parameters of an event are the specification `condition`. Refuted for conditions outside the limits of a parameter, which are clipped. *Status: partial.*
* **C304 Integrals and samples of a conditional PDF are per event of the given data** — `Functor`: As C303, with the integral and the drawing of the wrapped PDF as arbitrary functions of the parameters and a random number per event. Refuted: without `var` an integral fails, and a wrapped PDF of several observables cannot be sampled. *Status: partial.*
* **C305 The unit of an observable makes no difference to a density** — `Pdf`: The shapes and integrals of `Phys`, `Num` and `Dist` put together to densities (`Pdf/UnitModel.lean`); the converted parameters are the specification. Proved from the formulas, for every value of the parameters. *Status: proved.*
* **C306 The unit of an observable makes no difference to a fit** — `Loss`: The likelihood of `Loss/Model.lean`; models and data in two units are related by the specification `InUnit`. Refuted where a density is zero, since a small number without unit is added to it; otherwise proved with an explicit bound. *Status: partial.*
* **C307 The observables and limits given to concat** — `Data`: `Data/ConcatObsModel.lean` on top of the model of data; what the result shows is stated as in C20. Refuted along the index for limits (not cut) and unknown names (dropped), along the observables for names (limits lost); the rest proved. *Status: partial.*
* **C308 The table printed for a result** — `Acc`: `Acc/PrintModel.lean`: the headings and cells given to `tabulate`, the formats of numbers being arbitrary functions; cells are looked up by heading. Refuted for the column "at limit", which is asked of the parameter when printing and missing for frozen results, and for negative upper errors. *Status: partial.*
* **C309 The likelihood in terms of the arrays given** — `Loss`: `Loss/DataLinkModel.lean` puts the model of data (`Data/Model.lean`) into the likelihood; the specification speaks only of the events of the arrays, their weights, the limits and the density. Proved by following the invariant of the data through cut and re-ordering. *Status: proved.*
* **C310 Comparing spaces with <=** — `Space, Num`: `Space/OrderModel.lean` on the comparison of unions of C287, which now takes the comparator of limits as in the code. Containment is stated by points. Refuted by two intervals; what is compared and that it is an order is proved for all spaces. *Status: partial.*
* **C311 The choice of the parameters makes no difference to convergence and errors** — `Unc`: `Unc/ReparamProps.lean` on the models of C103 and C125-C129. First and second derivatives of the loss are Frechet derivatives; the chain rule gives those in the other parameters, and the rest is linear algebra. That the automatic derivatives are the derivatives is C264 and C266; numerical derivatives are not covered. *Status: proved.*
* **C312 The unit of an observable makes no difference to a binned fit** — `Convert`: `Convert/ChangeProps.lean` on the models of binning data (C23), of binning PDFs (C105) and of the pairing of bins in losses (C280): each is shown to commute with the change, then composed. Data with the observables in another order than the bins are left out, as they are filled by position (C23). *Status: proved.*
* **C313 The environment variables at import** — `Run`: Run/EnvModel: the two functions run at import, as functions of the environment and of the run state (Run/ModeModel); int(text) is a parameter. Proved by cases on the variables; disagreements with witnesses for every text. *Status: partial.*
* **C314 The choice of the parameters makes no difference to asymmetric errors** — `Unc`: Unc/ProfileReparam on the model of the search (Unc/Model, C130): corresponding searches are related by a simulation over the evaluated points; the start by induction over the trials; the equations by the chain rule and the block structure of the Jacobian. The points are chosen by scipy and are universally quantified, so that the theorems are about corresponding points; that scipy chooses corresponding points is not modelled. *Status: proved.*
* **C315 Arguments that are one thing or several** — `Args`: Args/ContainerModel: convert_to_container as a function of the type, the identity and the outcome of iterating; objects in a container are represented by their identities, subclasses by the type they count as. Proved by cases. *Status: partial.*
* **C316 The unit of an observable makes no difference to a sum of PDFs** — `Functor, Loss`: Functor/UnitProps on the model of formulas of sums (C301): by induction over the formula, outcome and yield do not depend on the PDFs but through their yields; the densities by the theorem that a formula is the sum of its PDFs with the products of the fractions. Together with C305 for the PDFs and C306 for the likelihood. *Status: proved.*
* **C317 The units of the observables make no difference to a product of PDFs** — `Functor`: Functor/ProdUnitProps on the model of formulas of products (C302) and of data (Verif/Data): the limits in the other unit contain the same events; by induction over the formula its PDFs are the replaced ones; the value as the product of the PDFs. The density that is normalised over the observables is left to C305 for the factors. *Status: proved.*
* **C318 Arithmetic with parameters gives the same for every kind of parameter, and functions follow the parameters they are multiplied with** — `Functor`: Functor/ParamOpsModel.lean, ParamOpsProps.lean: the methods of free, constant and composed parameters, tensors and models and the order in which Python tries them, with values that depend on the current values of the free parameters.  Induction over expressions and lists of parameters.  Disagreement with the code: `a * b * func` keeps the values of `a` and `b` of the time it was written, as `a * b` is a tensor; `a * (b * func)` follows them. *Status: partial.*

## Disagreements between the code and the properties

Each line names a theorem that refutes (a part of) the property for the modelled code on a concrete, reachable case, or for every case of a class.

* C01 `Zfit.Sp.autofill_overwrite_violated`: C01 is violated by `with_autofill_axes(overwrite=True)`: for a space with observables x, y at the axes 1, 0, the axes are renumbered (x is now at axis 0) but the limits by axis are not, so that dropping the observables leaves axis 0 with the limits of y.
* C01 `Zfit.Sp.subspace_without_obs_violated`: C01 is also lost when `get_subspace(obs=..)` is asked of a space without observables: the result has no limits at all (and `limits_are_set` is true of it).
* C04 `Zfit.Coord.eq_not_transitive_violated`: C04 is violated: `==` of coordinates is not transitive.
* C04 `Zfit.Sp.space_eq_transitive_violated`: C04 violated: equality of spaces is not transitive (the limits are compared with a tolerance).
* C04 `Zfit.Sp.space_hash_violated`: C04 violated: spaces that compare equal hash different keys (the observables in their order), so they are different members of a set.
* C04 `Zfit.Sp.space_eq_error_violated`: C04 violated: comparing a space that has only observables with one that has only axes is an error, not `False`.
* C05 `Zfit.Sp.inside_guarantee_shape_violated`: C05 is violated by `guarantee_limits=True`: the documented result is one boolean per event, the returned mask has one boolean per event and dimension.
* C06 `Zfit.Sp.mixed_coordinates_violated`: C06 is violated for spaces of which all have axes but only some have observables: the leaves are not brought to one order. The second space has the limits [2,3] for axis 0 and [10,11] for axis 1; after adding, the point with 2.5 at axis 0 and 10.5 at axis 1 is not inside, and the mirrored point is.
* C06 `Zfit.Sp.union_keeps_stale_axes_violated`: C06: when the axes of the added spaces disagree they are dropped from the pieces but the union still claims the axes of the first one.
* C07 `Zfit.Sp.combine_conflict_undetected_violated`: C07 violated: with three spaces a conflict can go unnoticed. A and B have x and y, C has y with other limits; the shared pair x, y is compared between A and B only, and y then counts as done.
* C07 `Zfit.Sp.combine_keyerror_violated`: C07 violated: four spaces that agree on everything they share fail with a `KeyError`.
* C08 `Zfit.Dim.bridge_leaves_overlap_violated`: C08 fails for a bridging object: `x`, `y`, then `(x, y)` gives two groups that share the observable `y`, although all three objects are connected.
* C08 `Zfit.Dim.bridge_loses_objects_violated`: C08 fails: a further object with the same observables makes the dictionary overwrite a group, and the objects 0 and 2 are in no group at all.
* C08 `Zfit.Dim.same_obs_self_asymmetric_violated`: The asymmetry: of two equal observables the first lists both positions, the second only the first.
* C09 `Zfit.Dim.overlap_order_violated`: C09 fails: the answer depends on the order, an interval containing an earlier one is not noticed.
* C09 `Zfit.Dim.overlap_is_per_observable_violated`: Intervals of different observables are never compared: boxes that differ only in a second observable "overlap".
* C10 `Zfit.Par.reversed_limits_violated`: The hypothesis on the order is needed: with the lower above the upper limit `value()` exceeds the upper one.
* C11 `Zfit.Par.equal_limits_reject_violated`: Proper limits are needed: with equal limits the tolerance is zero and every value is rejected, so that such a parameter cannot be created.
* C12 `Zfit.Par.with_block_entry_leaks_violated`: C12 fails for `with set_values([a, b], …)` when the value of a later parameter is rejected: the block is not entered and the parameters before it keep their new values.
* C12 `Zfit.Par.restore_after_limit_change_violated`: Restoring goes through the checks: if the body moves a limit past the old value, leaving the block raises and the value is not restored.
* C13 `Zfit.Par.set_values_not_atomic_violated`: C13 fails: the second value is rejected, the first parameter has changed.
* C14 `Zfit.Par.result_matches_other_object_violated`: A quirk: a fit result is matched by name, so that it sets a *different* parameter object of the same name.
* C14 `Zfit.Par.empty_params_accept_anything_violated`: A quirk: with no parameters at all, any list of values is accepted, whatever its length.
* C15 `Zfit.Par.nested_composed_same_name_violated`: C15 fails for composed parameters inside composed parameters: two different ones named `n`, both influencing the model, are not noticed.
* C15 `Zfit.Par.composed_same_name_as_dependency_violated`: C15 fails for the name of a composed parameter itself: it may carry the name of the parameter it depends on.
* C15 `Zfit.Par.daughter_yields_same_name_violated`: C15 does not cover the yields of daughters: two extended models with different yields of the same name make up a valid product.
* C18 `Zfit.Dat.columns_differ_from_array_violated`: C18 is violated for several limits in several dimensions: the event (1/2, 5/2) lies in neither square, is cut from the array but kept from the columns.
* C20 `Zfit.Dat.concat_limits_violated`: The concatenated data takes the limits of the first dataset without checking the others: it contains events outside its own limits, and they vanish when the (unchanged) observables are asked for again.
* C20 `Zfit.Dat.concat_obs_columns_violated`: C20 is violated if all datasets are held as columns (created from mappings or data frames): concatenation along the observables raises an `AttributeError`.
* C21 `Zfit.Dat.sampler_update_not_atomic_violated`: C21 is violated: a sampler with weights is updated without weights. The call raises, but the sample (here with fewer events than there are weights) has been replaced.
* C21 `Zfit.Dat.sampler_weights_unchecked_violated`: C21: with guaranteed limits, weights of any length are accepted, so that sample and weights disagree.
* C22 `Zfit.Bin.with_obs_cycle_violated`: **C22 is false**: a cyclic permutation of three axes of equal size is carried out in the wrong direction, without an error. In the bin with index 1 along `x` and 0 along the others the original has content 4, the result 2.
* C22 `Zfit.Bin.with_obs_cycle_raises_violated`: **C22 is false** also in that a permutation of the axes of a valid histogram may raise.
* C23 `Zfit.Bin.binning_order_violated`: **C23 is false** for data whose observables are in another order than those of the binned space: the columns are taken as they come. The events of `someData` in the range have weight 5, the histogram is empty, without an error.
* C25 `Zfit.Functor.sum_not_normalised_violated`: C25/C30 are violated for fractions that do not sum to one: over the common normalisation range of the daughters `pdf` is `Σ fracᵢ·pdfᵢ(x)`, whose integral over the range is `Σ fracᵢ`, while `integrate` claims one. Hence `pdf` is not the unnormalised density divided by the integral.
* C26 `Zfit.Functor.product_of_one_violated`: C26 is violated for a product of a single factor (over the factor's own normalisation range): evaluating it raises `TypeError`, because the factor is called with a keyword that does not exist.
* C27 `Zfit.Functor.truncated_integral_violated`: C27 is violated for limits that go beyond the space of the PDF, which are accepted: `integrate` over the space, and with it the normalisation of `pdf`, is that over the limits. Here a flat density truncated to [0, 2] in the space [0, 1]: two instead of one.
* C28 `Zfit.Functor.cached_pdf_norm_violated`: C28 is violated when the normalisation changes: `pdf(x, norm=False)` after `pdf(x)` returns the normalised values.
* C28 `Zfit.Functor.cached_integrate_norm_violated`: The same for `integrate`.
* C28 `Zfit.Functor.cached_pdf_fixed_parameter_violated`: C28 is violated when a parameter that does not float changes: the old values are returned.
* C28 `Zfit.Functor.cached_pdf_first_call_violated`: C28 is violated for a PDF with three parameters of which two float: its first evaluation raises, because two values are compared with three.
* C28 `Zfit.Functor.cached_pdf_other_size_violated`: C28 is violated for data of another size (neither being a single event): the evaluation raises.
* C28 `Zfit.Functor.cached_pdf_single_event_violated`: C28 is violated for one event after two equal ones, and the other way round: the number of values is that of the events before.
* C29 `Zfit.Functor.conditional_integrate_violated`: C29 is violated by `integrate`: the parameter keeps the value of the last event.
* C29 `Zfit.Functor.conditional_sample_violated`: C29 is violated by `sample`.
* C31 `Zfit.Pdf.log_pdf_violated`: C31 is violated for every PDF that overrides `_pdf` with a decorator that does not accept the normalisation range (`@supports()`), and does not override `_log_pdf`: the logarithm of the unnormalised density minus the *integral* (instead of its logarithm) is returned, which is never the right value.
* C32 `Zfit.Pdf.refused_yield_stays_violated`: C32 is violated: a refused `set_yield` (the yield has the name of another parameter) leaves the PDF extended with the refused yield, so that no other yield can be set any more.
* C33 `Zfit.Functor.scaled_func_loses_parameter_violated`: The parameter is lost from the parameters of the product if the function has an argument of that name, although the value depends on it: here a parameter called `mu` times a function whose argument `mu` is the parameter `m1`.
* C34 `Zfit.BinPdf.histogram_ext_pdf_norm_violated`: C34 is violated for the extended density over another norm range: an automatically extended histogram has there the yield *squared* (times what the counts have): `ext_pdf(norm) = counts(norm) / area * yield`.
* C34 `Zfit.BinPdf.modified_not_extended_violated`: C34 is violated for bin-wise modifiers of a pdf that is not extended: although the modified pdf is asked for relative counts only, the counts of the base are needed and the evaluation fails.
* C34 `Zfit.BinPdf.sum_extended_violated`: C34 is violated: a sum of not extended pdfs that is itself extended, a normal way to build a fit model, has neither counts nor an extended density: both raise "not extended".
* C34 `Zfit.BinPdf.sum_yield_ignored_violated`: C34 is violated: a sum of two extended pdfs (yields 3 and 4) that is given the yield 100 still has 7 counts.
* C35 `Zfit.BinPdf.binned_integral_outside_violated`: C35 is violated for a range outside the binning: the integral is not zero but, for a range to the right, negative (here two bins of width 1 with one event each, integrated over [5, 6]), and for one to the left as well.
* C36 `Zfit.BinPdf.binned_log_pdf_outside_violated`: C36 is violated: at *every* point outside the binning of *every* binned pdf `log_pdf` is 0, the logarithm of a density of one, while `pdf` is 0.
* C37 `Zfit.BinPdf.only_pdf_counts_violated`: C37 is violated: an extended pdf that implements only the density has no counts: the exception that means "not implemented by the class" reaches the user instead of density times area times yield.
* C37 `Zfit.BinPdf.only_unnormalized_pdf_violated`: C37 is violated: a pdf that implements only `_unnormalized_pdf`, the hook named in the documentation of unbinned pdfs, is never evaluated: `pdf` and `rel_counts` call each other without end.
* C37 `Zfit.BinPdf.ext_integrate_pieces_violated`: C37 is violated for `ext_integrate`: the pieces are integrated without the yield.
* C37 `Zfit.BinPdf.sample_hook_violated`: C37 is violated: the events a `_sample` hook draws are thrown away. Whatever it returns, the result is that of a pdf without the hook; for limits other than the pdf's space it is even an error.
* C37 `Zfit.BinPdf.create_sampler_params_violated`: C37 is violated: with the default `fixed_params=True`, giving `params` always raises; they are used only with `fixed_params=None`.
* C38 `Zfit.Loss.loss_add_options_violated`: The property fails for a chi2 with options: they are lost. Two losses of value `4 / sqrt 4` add up to one of value `2 * 4 / 6`.
* C38 `Zfit.Loss.simple_loss_add_violated`: The sum of a `SimpleLoss` and another loss can never be evaluated if a parameter has a name that does not consist of two characters.
* C40 `Zfit.Loss.loss_length_mismatch_violated`: Without fit ranges no list of models and data is ever rejected: what has no partner is silently dropped.
* C41 `Zfit.Loss.chi2_expected_violated`: With `errors="expected"` the variance is not the expected number of events (4), the value would be 1: it is the square root.
* C41 `Zfit.Loss.chi2_retry_violated`: The check of the variances happens only once: for every chi2 whose expected counts can be computed, the evaluation that is rejected for a variance that is not positive is not rejected if it is simply repeated (the floating point result is then infinite or not a number).
* C44 `Zfit.Run.object_reset_violated`: The full property fails: a change announced only to the registered holders (what happens inside of a compiled function) never reaches the cache, as the holder in the cache is never registered: whatever the function, the next call gives the result of the old state.
* C46 `Zfit.Run.dict_mode_violated`: The full property fails when the active mode is a dictionary: it is set again by an update, which leaves all other kinds of functions as they were in the block. Here losses (kind 2) are compiled before the block and not after.
* C46 `Zfit.Run.bad_mode_violated`: An invalid mode is rejected, but the backend has been switched already: the mode says `off` and the backend compiles.
* C47 `Zfit.Run.cpus_lost_violated`: The full property fails: the CPUs of a block left by an exception are gone.
* C48 `Zfit.Min.ignore_exception_violated`: If a block that ignores the budget is left by an exception, the budget is ignored for ever: here the loss is evaluated four times.
* C49 `Zfit.Min.nan_verbose_violated`: The full property fails in verbose mode: a NaN found by the backend is not pushed back but ends in a `ValueError`, because the message that takes the place of the loss is printed as a number.
* C50 `Zfit.Min.minimize_state_violated`: The property fails: after an exception the minimiser keeps the state of the failed minimisation ...
* C50 `Zfit.Min.minimize_params_violated`: ... and in no-update mode the parameters keep the values of the backend.
* C50 `Zfit.Min.minimize_init_violated`: In no-update mode the parameters are left at the initial values that were given, not at the values they had.
* C50 `Zfit.Min.minimize_none_violated`: When the budget is exhausted and the backend does not handle it, `minimize` returns `None` instead of a result.
* C50 `Zfit.Min.minimize_no_init_argument_violated`: A backend whose `_minimize` has no argument `init` is meant to be called again without it, but is called with it again, for ever.
* C52 `Zfit.Res.valid_at_limit_violated`: C52 fails for the fitted values: `at_limit` is asked of the parameters as they are, so a result whose fitted value is exactly the upper limit of parameter 0 is valid if the parameter was moved meanwhile.
* C52 `Zfit.Res.invalid_inside_violated`: … and the other way round: a result with fitted values well inside is invalid if the parameter happens to be at its limit when the result is made.
* C54 `Zfit.Res.covariance_correction_violated`: C54 fails: asking for the uncorrected covariance after the corrected one of the same method gives the corrected one again, and the other way round.
* C54 `Zfit.Res.hesse_correction_violated`: C54 fails for `hesse` as well: an explicitly requested correction is not used if the method was used before.
* C54 `Zfit.Res.hesse_after_errors_violated`: After `errors` found a new minimum, `hesse` under the same name raises a `TypeError` (it reads the confidence level of a text); after `errors` without one, a weighted `hesse` under the same name raises a `KeyError` instead of the `NameError` it is about to raise.
* C55 `Zfit.Res.with_result_entry_violated`: C55 fails if a fitted value is not acceptable (the limits were narrowed after the fit): the block is not entered, but the parameters before it keep the fitted values, and the old values stay on the stack.
* C55 `Zfit.Res.with_result_stale_violated`: C55 fails for the enclosing block in that case: if, inside a block of result 1, the limit of parameter 0 is lowered, the result refused once more, and the limit raised again, leaving the outer block restores the values of the refused entry (1) instead of those before the block (5).
* C56 `Zfit.Res.errors_sigma_dropped_violated`: C56 fails for a number of standard deviations: after a new minimum, errors requested with `sigma=2` are computed with one standard deviation, with another tolerance and with another covariance method.
* C60 `Zfit.Num.analytic_cover_violated`: C60 fails for finite limits: an integral registered for [0, 10] is used for [-5, 5], which it does not cover, and not for [1, 5], which it covers: the comparison of limits requires the *lower* limits to be below as well.
* C60 `Zfit.Num.analytic_any_replaced_violated`: C60 fails for special cases of a general integral: registering an integral for [0, 1] after one for `ANY` limits replaces the general one (`ANY` compares equal to everything), so [0, 5] has no integral any more.
* C61 `Zfit.Num.polynomial_integral_violated`: C61 fails without scaling: the constant polynomial 1 on the space [0, 4], integrated over [0, 4], gives 8.
* C61 `Zfit.Num.bernstein_integral_violated`: C61 for Bernstein fails without scaling: the integral is that of the scaled density. The coefficients 0 and 1 give the density x; on the space [0, 2] its integral over the space is 2 and the analytic integral 1.
* C63 `Zfit.Num.shift_restored_violated`: C63 fails after an exception: the shift of the failed call stays, and the unnormalised density at 0 is `exp (-1)` instead of 1.
* C63 `Zfit.Num.exponential_zero_violated`: C63 does not extend to `lambda = 0`: the density is uniform then, but every value is NaN.
* C64 `Zfit.Io.hs3_name_collision_violated`: C64 fails when an observable has the name of a parameter: the name of the space is replaced by the parameter.
* C64 `Zfit.Io.hs3_fixed_violated`: C64 fails for a parameter that is fixed (`floating=False`): it is loaded as a constant, which can never float again.
* C66 `Zfit.Io.options_not_atomic_violated`: C66 fails: a tolerance out of range raises, but the maximal number of draws given with it stays.
* C66 `Zfit.Io.options_number_violated`: C66 fails: a *number* of draws per dimension always raises (and stays), so the other options given with it are not all applied.
* C69 `Zfit.Functor.sum_copy_violated`: C69 is violated for fractions that do not sum to one (as many fractions as daughters are "used as they are"): the copy, and the extended version, get another last fraction.
* C69 `Zfit.Functor.sum_copy_drops_yield_violated`: C69 is violated for every extended sum: the copy is not extended.
* C70 `Zfit.Res.errors_sigma_violated`: C70 fails: `errors(sigma=4)` gives the errors of two standard deviations.
* C71 `Zfit.Num.space_le_violated`: C310 is violated in both directions: two disjoint intervals are `<=`, and an interval inside another is not.
* C73 `Zfit.Phys.crystalball_integral_near_one_violated`: C73, the missing part: for every exponent `1 < n < 1 + 1e-5` the analytic integral over `[-3, -2]` (with `mu = 0`, `sigma = alpha = 1`) is larger than the integral.
* C73 `Zfit.Phys.crystalball_integral_negative_sigma_violated`: C73, negative width: although the integral takes `|sigma|`, the shape does not, so with `sigma = -1` the integral over `[2, 3]`, where the mirrored shape has its tail, is that of the Gaussian core.
* C75 `Zfit.Root.brentq_no_sign_change_violated`: C75, the missing part: without a sign change over the bracket the search reports convergence, with the root zero and the value zero, whatever the function and wherever the bracket.
* C76 `Zfit.Root.isj_bandwidth_zero_violated`: C76, the missing part: if the solution lies beyond the first right bracket (`t_opt` exceeds it and zero by more than `2e-7`), the bandwidth is zero.
* C77 `Zfit.Lm.lm_no_step_violated`: C77, the missing part: with a steep loss no step is found in the first iteration, and an assertion fails.
* C77 `Zfit.Lm.lm_accepts_nan_violated`: C77, the missing part: a loss that is NaN somewhere. The value made up for a NaN (the last value plus a penalty) is accepted as an improvement: the result is valid, at a point where the loss is NaN.
* C78 `Zfit.Lm.lm_valid_far_from_minimum_violated`: C78 refuted: for a convex loss with a single minimum, exact derivatives and the default settings, the result of Levenberg-Marquardt is valid although its loss is more than 24 above the loss at another point, and the estimated distance to the minimum there, computed with gradient and Hessian at the reported parameters, is more than 20 (the tolerance is 1/2000).
* C79 `Zfit.Constr.gaussian_without_uncertainty_violated`: C79, a part that fails: a constraint without any uncertainty can be created; only its value cannot be computed.
* C80 `Zfit.Constr.poisson_documented_violated`: C80 refuted: for the observation 1 and the parameter value 2 the constraint does not have the documented value.
* C80 `Zfit.Constr.poisson_minimum_violated`: ... and for the observation 2 a smaller value at 3/2.
* C80 `Zfit.Constr.lognormal_observation_violated`: C80 refuted: a log-normal constraint to the observation 1 with an uncertainty other than one is not smallest at 1.
* C81 `Zfit.Dill.dict_changed_unbounded_violated`: C81 refuted: as long as a dictionary changes its size, `dumps` and `dump` try again regardless of `max_retries`, until Python's limit of recursive calls.
* C81 `Zfit.Dill.dumps_discards_verified_violated`: C81 refuted: `dumps` raises `ZfitDillDumpError` although the second of three dumps was verified, since it goes on trying after any failure.
* C81 `Zfit.Dill.dump_garbage_violated`: C81 refuted: without verification, the bytes that a failed dump has written stay in the file in front of the second, successful one: the file cannot be loaded from where `dump` started.
* C81 `Zfit.Dill.dump_trailing_violated`: C81 refuted: if a retried dump is shorter than the first, the rest of the first remains behind it.
* C82 `Zfit.Kde.pad_outside_violated`: C82 refuted for data beyond the limits ("using a larger dataset is actually good practice"): an event below the lower limit is mirrored into the range.
* C82 `Zfit.Kde.pad_border_doubled_violated`: C82 refuted for events on a limit: they are counted twice.
* C83 `Zfit.Kde.kde_negative_weight_violated`: C83 refuted for samples with a negative weight (which zfit data may have): the estimate is NaN everywhere, even if the sum of the weights is positive.
* C84 `Zfit.Kde.simple_split_violated`: C84 refuted for the method 'simple' with weights ("each event falls into the bin within the bin edges, while the neighbouring bins get zero counts from this event"): an event at 3/5 is split between two bins.
* C84 `Zfit.Kde.simple_weights_violated`: C84 refuted for the method 'simple': giving every event the weight one is not the same as giving none.
* C84 `Zfit.Kde.grid_degenerate_violated`: C84 refuted for a sample of equal events: the grid has no width, so that the position on it is 0/0.
* C85 `Zfit.Kde.rule_documented_violated`: C85 refuted: the range between the quartiles is not divided by 1.34.
* C85 `Zfit.Kde.rule_unit_weights_violated`: C85 refuted: weights of one give another bandwidth than no weights.
* C85 `Zfit.Kde.rule_count_violated`: C85 refuted: events of weight two give another bandwidth than every event twice; by `rule_weights_scale` the bandwidth does not know how large the weights are.
* C85 `Zfit.Kde.rule_raises_violated`: C85 refuted: if the largest event has more than half of the weight, there is no bandwidth (the index of its quartile is behind the end).
* C85 `Zfit.Kde.rule_zero_violated`: C85 refuted: the bandwidth of a sample that is not constant may be zero.
* C85 `Zfit.Kde.rule_weighted_order_violated`: C85 refuted: with equal events of different weights the order matters.
* C87 `Zfit.Dist.qGauss_documented_violated`: C87 refuted for `QGauss`: with `q = 2` the documented density at `mu + sigma` is half of that at `mu`, the computed one two thirds of it, over every norm range.
* C89 `Zfit.Dist.poisson_sum_violated`: C89, counterexample. If the lower limit is an integer, its probability is missing in the normalisation though the value belongs to the range: with the rate 1 and the norm range [0, 1] the probabilities of 0 and 1, the only integers in the range, add up to two.
* C90 `Zfit.Spline.morph_negative_violated`: C90, counterexample. Counts of templates that are not negative become negative between the templates: the counts 1, 0, 0 at `alpha` -1, 0, 1 give less than zero at 1/2.
* C90 `Zfit.Spline.morph_counts_violated`: C90, counterexample. Between templates the counts are not the yield times the relative counts: two templates with one and three events and the shapes (1, 0) and (0, 1) give 1/2 and 3/2 events half-way, where the yield is 2 and the relative counts are 1/2 each.
* C90 `Zfit.Spline.morph_changes_input_violated`: C90, counterexample. The dictionary of the user is changed: histograms in it are replaced by PDFs, also if the creation fails afterwards.
* C91 `Zfit.Spline.spline_pdf_negative_violated`: C91, counterexample. The density is negative inside the limits: all events in the middle one of three bins of width one, at the upper limit.
* C91 `Zfit.Spline.spline_pdf_norm_violated`: C91, counterexample. The density is not normalised: with all events in the middle one of three bins of width one, the integral over the limits is less than 0.9.
* C91 `Zfit.Spline.spline_ext_order_violated`: C91, counterexample. With another order than three the extended density is not the yield times the density: with the order two, all events in the middle one of three bins, and the yield one, half-way between two centres.
* C92 `Zfit.Diff.gradient_at_limit_violated`: C92, counterexample. At the limit the derivative of `p` itself is reported as 1/2.
* C92 `Zfit.Diff.exception_leaves_step_violated`: C92, counterexample. If the function raises during the evaluation, the parameter keeps the value of the step: 1/2 becomes 3/5.
* C92 `Zfit.Diff.alias_recursion_violated`: C92, counterexample. The deprecated name `numerical_value_gradients` never gives a result, for every depth of recursion.
* C92 `Zfit.Diff.gradient_instead_of_func_violated`: C92, counterexample. A gradient instead of the function is accepted by the checks but never used: a `TypeError` is raised.
* C93 `Zfit.Diff.value_gradient_argument_violated`: C93, counterexample. `value_gradient(numgrad=True)` uses the automatic gradient if the option says so: the argument is ignored.
* C93 `Zfit.Diff.hessian_option_violated`: C93, counterexample. `hessian()` ignores the option for the Hessian, it uses the one for the gradient; `value_gradient_hessian()` uses the one for the Hessian also for the gradient. With the defaults (automatic gradient, numerical Hessian) both are wrong.
* C93 `Zfit.Diff.overridden_gradient_violated`: C93, counterexample. An overridden gradient is not used by `value_gradient_hessian`.
* C93 `Zfit.Diff.simple_loss_automatic_violated`: C93, counterexample. A `SimpleLoss` with `gradient="zfit"` (automatic) can never give a gradient.
* C93 `Zfit.Diff.simple_loss_create_new_violated`: C93, counterexample. `create_new` of a `SimpleLoss` forgets the gradient function.
* C94 `Zfit.Conv.convolution_violated`: The full claim of C94 fails: a peak at 2 smeared by a kernel with the three points -1, 0, 1 has to be seen at 1, 2, 3, and is seen at 5/4, 2, 11/4: the value at 11/4 is not the sum of kernel times function over the kernel points. The hypotheses of `width_violated` and of `distribution_of_sum` hold for it.
* C94 `Zfit.Conv.width_violated`: The width of the result is always too small: the variance is less than the sum of the variances of the function and the kernel, for every convolution that can be set up (three points or more) and every kernel with a positive variance.
* C94 `Zfit.Conv.range_violated`: For a kernel with other limits the range is wrong (the lower limit of the kernel is added to the lower limit of the function, instead of its upper limit subtracted): a function on (0, 4) and a kernel on (1, 3). The function, which is 1 from 0 to 4, is not evaluated below 1. At `x = 3` all of the needed values lie between 0 and 4, their sum is 3, the pdf is 2.
* C94 `Zfit.Conv.one_point_violated`: One point (`n=0` or `n=1`): the kernel is only evaluated at its lower limit; if it is zero there, the pdf is zero everywhere.
* C95 `Zfit.Conv.sampling_violated`: The full claim of C95 fails for a kernel on (0, 2) and the limits (0, 4): a function with half of its events at -1 and half at 1, and a kernel at 3/2. The sum is 1/2 or 5/2, each with probability 1/2 and both in the limits; all sampled events are at 5/2.
* C95 `Zfit.Conv.no_proposal_violated`: If none of the proposals lies in the limits, sampling raises although it would only have to go on: with the numerical checks that are on by default, and whatever the function and the kernel are.
* C97 `Zfit.Wrap.minuit_edm_violated`: C97 fails for the criterion `EDM` and `errordef` 1/2, that is for every likelihood: a valid result may have a distance of almost `tol`, which is not smaller than `errordef * tol`.
* C97 `Zfit.Wrap.minuit_budget_violated`: C97 fails for the budget: `maxiter` limits each run, not the minimisation; runs that use up their 100 evaluations without converging are repeated 20 times.
* C98 `Zfit.Wrap.scipy_together_violated`: C98 fails for Scipy: the last point is displaced in place after its criterion was computed, also if it is the final one. The result is valid, but neither its value nor its criterion is that of its point, whose criterion does not even meet the tolerance.
* C98 `Zfit.Wrap.nlopt_together_violated`: C98 fails for NLopt if the last run failed: the value is the one of the failed run, the point that of an earlier one.
* C99 `Zfit.Wrap.scipy_inside_violated`: C99 fails for Scipy: with the same library, which respects the limits 0 and 1 and never goes uphill, the reported point is above the limit and worse than the starting point; the result is valid.
* C100 `Zfit.Wrap.nlopt_restart_violated`: C100 fails for NLopt: the random starting point drawn after a failed run is never used; the result is the same for all of them, and a library that fails at the starting point is asked 20 times at the same point.
* C100 `Zfit.Wrap.nlopt_stuck_violated`: C100, an instance: the restarts would go to the minimum at 0, where this library succeeds.
* C100 `Zfit.Wrap.scipy_budget_violated`: C100 fails for Scipy: if a later run exceeds the budget, `MaximumIterationReached` is raised and the points that earlier runs found are lost.
* C101 `Zfit.Wrap.scipy_gradient_violated`: C101 fails for minimisers with a hessian: a numerical gradient is refused whatever the hessian, also with the quasi-Newton strategies the message asks for, since the first check wants an instance and a later one a class.
* C101 `Zfit.Wrap.nlopt_algorithm_violated`: C101 fails for NLopt: the algorithm is the same for every minimiser.
* C101 `Zfit.Wrap.nlopt_cobyla_violated`: C101, an instance.
* C102 `Zfit.Wrap.ipopt_options_violated`: C102 fails for Ipyopt: the user's dictionary is changed, so that making a second minimiser with the same dictionary always fails.
* C102 `Zfit.Wrap.minuit_options_violated`: C102 fails for Minuit: the user's dictionary gets two entries more; it then no longer suits another minimiser.
* C102 `Zfit.Wrap.minuit_unknown_violated`: C102 fails for Minuit: an option that is not known is accepted by the constructor and refused when minimising.
* C104 `Zfit.Wrap.edm_saddle_violated`: C104 fails: a point where the gradient vanishes counts as converged with criterion 0 although the loss is curved downwards there; also at a maximum.
* C104 `Zfit.Wrap.edm_maximum_violated`: C104, an instance: at the maximum of `-x ^ 2 / 2` the criterion is 0, but other points are lower by any amount.
* C104 `Zfit.Wrap.edm_documented_violated`: C104 fails: the formula of the documentation, `g^T H^{-1} g`, is twice the criterion.
* C106 `Zfit.Convert.binned_given_yield_violated`: C106 is violated: if an extended PDF is binned and a yield is given, a warning says that the given yield is used and `get_yield` returns it, but the counts add up to the yield the PDF had before.
* C107 `Zfit.Convert.binned_counts_cut_norm_violated`: C107 is violated: normalised over a range that ends inside a bin the counts are normalised with the fraction of the bin, the relative counts with the integral of the PDF; the same for a range larger than the binning.
* C110 `Zfit.Convert.unbinned_own_norm_violated`: C110 is violated: the unbinned PDF made with a space smaller than that of the binned PDF has the smaller space as its norm, but is normalised over the whole range of the bins: here its integral over its own norm is 1/4. Asked for a norm that is a little larger, the integral over that one is one.
* C111 `Zfit.Convert.unbinned_given_yield_violated`: C111 is violated: with a yield given, the PDF reports it and `ext_integrate` uses it, but `ext_pdf` is that of the binned PDF with its own yield; if the binned PDF is not extended, `ext_pdf` raises although the PDF is extended.
* C112 `Zfit.Convert.unbinned_sample_limits_violated`: C112 is violated: the limits are not used when sampling, the events outside are thrown away afterwards. With all `n` events drawn in other bins, the sample asked for inside `(0, 1)` is empty, for every `n` and all random numbers.
* C112 `Zfit.Convert.unbinned_sample_order_violated`: C113 is violated: the events are not in random order. Whatever the counts and the random numbers, an event is never in a bin before the bin of an earlier event of the sample: the first events are in the first bins.
* C114 `Zfit.Args.single_entry_dict_violated`: C114 fails: a function of one argument that takes the mapping, with a mapping of one entry, is called with the entry by name; the parameter is created and every evaluation raises.
* C114 `Zfit.Args.star_args_violated`: C114 fails: a function `f(*args)` with several parameters gets one tuple as its only argument instead of the parameters.
* C115 `Zfit.Args.no_argument_list_violated`: C115 fails: given a list of parameters and a function without arguments, the composed parameter reports none of them, whatever the function reads.
* C115 `Zfit.Args.conj_params_violated`: C115 fails for the conjugate of a complex parameter: it reports no parameters at all, although its value changes with those of the parts.
* C117 `Zfit.Args.complex_floating_violated`: C117 fails for parameters: with `floating=False` ("the parameter is constant") the parts are still free.
* C118 `Zfit.Args.pickle_has_limits_violated`: C118 fails: a parameter without limits comes back as one that has limits.
* C118 `Zfit.Args.pickle_step_violated`: C118 fails: a parameter without a step size, for which the minimiser chooses its first step, comes back with one.
* C118 `Zfit.Args.pickle_empty_range_violated`: C118 fails: a parameter whose limits were both set to the same number (which is possible) cannot be restored.
* C119 `Zfit.Args.randomize_without_limits_violated`: C119 fails: without any limits `randomize` does not raise its "cannot randomize a parameter without limits"; the sampler is asked for a number between minus and plus infinity, and whatever it returns becomes the value.
* C121 `Zfit.Args.convert_limits_violated`: C121 fails by default: the limits are ignored, also if the value is outside of them.
* C121 `Zfit.Args.convert_complex_limits_violated`: C121 fails for complex numbers: the parts are floating without limits and step size.
* C122 `Zfit.Args.cached_pdf_violated`: C122 fails for a cached PDF: it declares that nothing is differentiable (it raises during differentiation), but as its parameters are those of the PDF that it wraps, none of them is refused.
* C124 `Zfit.Args.rejected_value_leaks_violated`: C124 fails: a mapping with several values of which a later one is rejected raises, and the parameters before it keep the new values. The order is that of the parameters of the model, not of the mapping.
* C124 `Zfit.Args.rejected_call_leaks_violated`: The same for calling a loss.
* C125 `Zfit.Unc.hesse_error_chi2_violated`: C125 fails for the default method with a chi2 (`errordef` 1): for every parabola the error is too small, by a factor of √2.
* C126 `Zfit.Unc.hesse_at_current_values_violated`: C126 fails: for the default method the error of a result depends on the values the parameters have when `hesse` is called. Here the variance is 1, but 1/2 if the parameter was set to 1 meanwhile.
* C127 `Zfit.Unc.covariance_moves_parameters_violated`: C127 fails: `covariance(params)` and `hesse(params)` with the method of Minuit leave every parameter that is not in `params` at the value of the last evaluation.
* C128 `Zfit.Unc.asymptotic_yield_violated`: C128 fails for extended likelihoods: with the yield of a model as the only parameter, the corrected variance of the fitted yield (the sum of the weights) is 0, whatever the weights are; it should be the sum of the squared weights.
* C128 `Zfit.Unc.asymptotic_constraint_violated`: C128 fails for constraints: a parameter that only has a constraint `(x - obs)² / (2 width²)` gets the variance 0 instead of `width²`, if some data are weighted.
* C129 `Zfit.Unc.effsize_violated`: C129 fails: the factor is computed and not used, so the covariance is that without a correction; for weights whose factor is not 1 the documented one is not returned.
* C129 `Zfit.Unc.effsize_mixed_violated`: C129 fails if only some of the datasets have weights: an `AttributeError` is raised.
* C130 `Zfit.Unc.profile_not_minimised_violated`: C130 fails: the loss only has to be at the level, the other parameters need not be adjusted. For `bent` the upper error is 1, found at the first evaluation, although the profile of the loss there is 3/8 only; the level of 1/2 is at √(3/2).
* C135 `Zfit.Loss.fit_range_extended_violated`: C135 fails for extended likelihoods: the number of events is that without the fit range. Whenever events are outside, the yield that is the number of events inside is worse than the one that is the number of all events, while for the cut data it is better.
* C138 `Zfit.Part.partial_pieces_violated`: C138, refuted: a PDF without analytic partial integral and without `_partial_integrate` refuses every partial integral over limits that are not a single piece, although the integral over each single piece is returned: the numeric integration raises `ValueError`, which is not the exception after which the pieces are integrated one by one.
* C139 `Zfit.Part.partial_numeric_violated`: C139, refuted: for a PDF that does not override `_partial_numeric_integrate`, `partial_numeric_integrate` raises `TypeError` for every event, limits and normalisation: the method of the base class cannot be called. And if it is overridden with `@supports()`, it still raises for every normalisation range (also the default one).
* C141 `Zfit.Part.partial_mc_overlap_violated`: C141, refuted: if the event also has the observables that are integrated over, its values are used in place of the drawn ones: the result is the function at the event times the volume of the limits, whatever the limits are, and nothing is integrated. (Here for graph mode, where one batch is used.)
* C142 `Zfit.Draw.sample_n_violated`: C142 is false: any string is taken as "extended" if the PDF is extended; and "extended" is refused with `ValueError` instead of `NotExtendedPDFError` if it is not.
* C143 `Zfit.Draw.extended_sampling_truncated_violated`: C143 is false for a truncated PDF (`TruncatedPDF(pdf, limits)` with an extended `pdf`, which gives it a scaled yield): `sample()` draws as many events as the wrapped PDF has, everywhere in its space, so also where the truncated PDF is zero. This holds for every wrapped PDF `f` with yield `y` and every truncation.
* C143 `Zfit.Draw.extended_sampling_fracs_violated`: C143 is false for a sum with given fractions and a given yield `y` if the daughters have yields as well: those are used instead, with their proportions. Here the daughters expect 1 and 2 events, whatever `y` and the fractions are; so with a yield of 100 an event that has the same probability in both is expected 3/100 as often as it should be.
* C143 `Zfit.Draw.extended_sampling_mixed_violated`: C143 is false for an extended functor of which some daughters are extended and some are not, as a sum with fractions: an `AssertionError`.
* C145 `Zfit.Draw.sum_sample_limits_violated`: C145 is false: half of the first density is in the limits and all of the second. Given that an event is in the limits, it is from the first with probability 1/3, but the sampling takes the fraction 1/2.
* C147 `Zfit.Draw.product_sample_order_violated`: C147 is false if the product is created with its observables in another order: the columns of the sample get the names of the others. `ProductPDF([px, py], obs=["y", "x"])` has what was drawn for "x" in the column "y".
* C147 `Zfit.Draw.product_sample_shared_violated`: C147 is false also without `obs` if some factors share observables and others do not: the former are moved to the end. `ProductPDF([px, qx, py])` has the observables "x" and "y", and what was drawn for "y" is in the column "x".
* C148 `Zfit.Draw.product_sample_limits_violated`: C148 is false for limits that are not a box: each factor is sampled in the projection of the limits on its observables. Here the limits are `[0, 1] × [0, 1]` and `[2, 3] × [2, 3]`; "x" and "y" are drawn from `[0, 1]` and `[2, 3]` on their own, and of the one event that was asked for, none is left.
* C150 `Zfit.Fun.reported_functor_violated`: C150 is false for a parameter times a sum: for every sum, and every product, only the parameter it is multiplied with is reported. With two functions `x + a` and `y + b`, the value of `p * (f + g)` changes with `a`, but `a` is not reported.
* C150 `Zfit.Fun.reported_clash_violated`: C150 is false if the name of the parameter is one of the keywords: `mu * f`, where `f` was created with `mu=Parameter("mean")`, reports "mean" only.
* C151 `Zfit.Fun.as_pdf_functor_violated`: C151 is false for sums and products of functions: the PDF reports no parameters at all, so nothing can be fitted.
* C151 `Zfit.Fun.as_pdf_extended_violated`: C151 is false for a function with a parameter for the keyword "extended" (the same holds for "norm" and "label"): the PDF is extended with this parameter as its yield.
* C152 `Zfit.Fun.limits_scale_violated`: C152 is false for a parameter times a function, and for `as_pdf`: for every function, the limits are lost.
* C152 `Zfit.Fun.limits_sum_violated`: C152 is false for sums with a part that is multiplied with a parameter: `f + p * g` raises `LimitsNotSpecifiedError` for all functions `f` with limits.
* C153 `Zfit.Fun.sum_integral_violated`: C153 is false for functions with different observables: the integral over an observable that a function does not depend on is missing. For the sum of the functions 1 of "x" and 1 of "y" over `[0, 2] × [0, 3]` the result is 5, the integral is 12.
* C154 `Zfit.Fun.copy_violated`: C154 is false: `copy` of a `SimpleFunc` always raises `TypeError`, and if the function has another parameter for the keyword, the original has the new parameter from then on.
* C155 `Zfit.Smp.update_binned_not_atomic_violated`: C155 is violated: binned data with variances (as all data binned by zfit has) is given to a sampler without: the call raises, but the contents have been replaced. The hash still is that of the previous contents.
* C155 `Zfit.Smp.update_binned_hashing_violated`: C155 is violated: while hashing of data is disabled, every update raises after the contents have been replaced.
* C155 `Zfit.Smp.create_hashing_violated`: The consequence for the creation: no binned sampler can be created while hashing of data is disabled.
* C156 `Zfit.Smp.shape_binned_violated`: C156 is violated: three contents are accepted for two bins.
* C157 `Zfit.Smp.update_order_violated`: C157 is violated: data with the observables in another order is accepted, and its contents end up in other bins.
* C157 `Zfit.Smp.update_bins_violated`: C157 is violated: data with other bins is accepted, the content of the bin from 10 to 20 is taken for the one from 0 to 1.
* C159 `Zfit.Smp.notice_collision_violated`: C159 is violated for every hash function: there are two contents of a histogram with one bin that differ, but when the sampler changes from one to the other, the loss does not check its data again.
* C159 `Zfit.Smp.notice_failed_update_violated`: C159 is violated also without a collision: after an update that raised (see `update_binned_not_atomic_violated`) the contents are new but the hash is not.
* C159 `Zfit.Smp.notice_hashing_violated`: C159 is violated for unbinned samplers while hashing of data is disabled: there is no hash before and after.
* C160 `Zfit.Smp.round_trip_violated`: C160 is violated: data without variances comes back with variances, all of them "not a number".
* C161 `Zfit.Smp.poisson_variance_violated`: C161 is violated by every bin with another content: the root of the content, not the content, is stored as the variance.
* C161 `Zfit.Smp.with_variances_sampler_violated`: C161 is violated: the variances of a sampler can never be replaced this way.
* C162 `Zfit.Smp.inside_violated`: C162 is violated: the first sample is cut to the limits, the next one is not, although the user did not guarantee anything (`guarantee_limits=False`).
* C164 `Zfit.Smp.resample_possible_violated`: C164 is violated: with functions that return NumPy arrays, a single column as a one dimensional tensor, or a number of events of their own choice, samplers can be created; `resample` with the same function raises.
* C167 `Zfit.Start.given_overwritten_violated`: C167: a value given for a parameter is overwritten by that of the result: `minimize(loss, {mu: 1, sigma: None}, init=result)` starts at the `mu` of the result.
* C168 `Zfit.Start.init_other_violated`: C168: a result that lacks one of the free parameters of the loss, for instance because it was fixed there, cannot be used to start from: a `ValueError` is raised.
* C169 `Zfit.Start.foreign_result_violated`: C169: Powell and Nelder-Mead raise an exception for every result of Minuit, NLopt and Ipopt, before SciPy is called.
* C170 `Zfit.Start.simplex_kept_violated`: C170: after a first minimisation, Powell and Nelder-Mead start another one (of whatever loss) with the directions or the simplex of the first.
* C170 `Zfit.Start.radius_kept_violated`: C170: with a result to start from, the trust radius is that of an earlier minimisation.
* C171 `Zfit.Start.trust_radius_violated`: C171: the initial trust radius that the user gives is overwritten by the mean of the step sizes if the fit does not start from a result, whatever it is.
* C172 `Zfit.Start.refused_changed_violated`: C172: `minimize(loss, {fixed: 3})` raises a `RuntimeError`, but the parameter has been set.
* C172 `Zfit.Start.refused_init_violated`: C172: with a result that lacks a parameter, the others have been set when the `ValueError` is raised; with a result as the loss and an array of start values, these have been set when an `AttributeError` is raised.
* C173 `Zfit.Start.array_violated`: C173: an array of start values is refused for every loss and function, although it is documented: it cannot be put into a set.
* C174 `Zfit.Hs3.three_alike_violated`: C174 fails: of three objects of the same name, the second is lost when the iterators of the second and third, which are thrown away at once, had the same address.
* C178 `Zfit.Hs3.same_name_violated`: C178 fails for two PDFs that have parameters of their own of the same name, such as a mean at 1 and a mean at 5: they come back sharing one parameter, at the first value.
* C179 `Zfit.Hs3.observable_removed_violated`: C179 fails for every document with an observable among its variables: `from_hs3` (`zfit.hs3.loads`) removes it from the mapping that it is given.
* C181 `Zfit.Hs3.norm_lost_violated`: C181 fails for a PDF with a norm of its own (`norm=(2, 4)` in the space (0, 10)): it is loaded with its space as norm, and its density differs, such as that of the uniform PDF.
* C182 `Zfit.Hs3.sum_not_extended_violated`: C182 fails for every sum of extended PDFs without fractions: it is extended, but is loaded with its fractions given, and so not extended.
* C182 `Zfit.Hs3.sum_extended_true_violated`: And fails when such a sum is made with `extended=True`: it is loaded with a yield of one.
* C184 `Zfit.Acc.frozen_values_violated`: C184 violated: after freezing, the values cannot be looked up by name (nor by parameter), although the documentation of `freeze` says that parameters can be accessed by their name: the list below only looks up parameters in its dictionary (/repo/zfit/minimizers/fitresult.py:1653-1656), and `in` raises a `RuntimeError`.
* C184 `Zfit.Acc.absent_violated`: C184 violated: asking whether a parameter that was not fitted is in the values raises a `RuntimeError` ("this should not happen") instead of answering that it is not: the parameter is replaced by its name, and a list is asked for a name (/repo/zfit/minimizers/fitresult.py:280-299).
* C184 `Zfit.Acc.shared_violated`: **C256 is violated.** Methods added to a subclass are accepted by its parent, if the parent got its list after the subclass was defined.
* C186 `Zfit.Acc.freeze_half_violated`: C186 violated: freezing a result without a criterion, which the constructor accepts, raises an `AttributeError` after the loss and the minimiser have been replaced by their names (/repo/zfit/minimizers/fitresult.py:1515-1517): the result is not frozen, but no covariance can be calculated any more.
* C187 `Zfit.Acc.gradient_unknown_violated`: C187 violated: a parameter that the gradient was not calculated with is left out silently, and the entries are then those of other positions (/repo/zfit/minimizers/fitresult.py:132).
* C187 `Zfit.Acc.gradient_twice_violated`: C187 violated: a parameter asked for twice is in the answer once (/repo/zfit/minimizers/fitresult.py:132-134).
* C188 `Zfit.Acc.no_invert_violated`: C188 violated: with `invert=False`, an inverse Hessian that was not given is returned if it has been asked for before with `invert=True`, and `None` otherwise (/repo/zfit/minimizers/fitresult.py:165-171).
* C189 `Zfit.Acc.order_violated`: C189 violated: the approximations can be given with their own parameters, but the positions are those of the parameters of the result (/repo/zfit/minimizers/fitresult.py:260-261): the variance of one parameter is reported as that of another.
* C190 `Zfit.Acc.evaluator_ignored_violated`: C190 violated: if there is any `info`, as in the results of all minimisers of libraries, the entries that it lacks are set to `None`, and the last gradient and Hessian of the evaluator are never used (/repo/zfit/minimizers/fitresult.py:497-508).
* C190 `Zfit.Acc.nlopt_hessian_violated`: C190 violated: a Hessian given to `from_nlopt`, which is documented, is not used: neither the Hessian nor its inverse is available afterwards, whatever the evaluator knows, of which nothing is used either (/repo/zfit/minimizers/fitresult.py:1020-1030).
* C191 `Zfit.Acc.mapping_changed_violated`: C191 violated: the parameters of the result and the approximations of the first fit are written into the mapping that the caller gave (/repo/zfit/minimizers/fitresult.py:493-508); if it is used for the next result, that one gets the gradient of the first.
* C192 `Zfit.Acc.not_converged_violated`: C192 violated: a result made as valid but not converged is not valid, and says nothing about the reason (/repo/zfit/minimizers/fitresult.py:417-418, 1131).
* C192 `Zfit.Acc.status_violated`: C192 violated: a result with a parameter at its limit is not valid, but its status is 0, which means a valid termination (/repo/zfit/minimizers/fitresult.py:413-430).
* C193 `Zfit.Own.both_names_violated`: C193 is violated by a method that has both `norm` and the old `norm_range`, as the base class itself has: without a norm, the call fails with an `IndexError` (space.py:3289-3290 sets the position of `norm_range`, which is not there).
* C193 `Zfit.Own.other_name_violated`: C193 is violated by a method that names the parameter otherwise: it is run with a norm that it does not support, so that the value is not normalised.
* C195 `Zfit.Own.run_twice_violated`: C195 is violated by a body that calls something with an argument `params` it does not have: instead of the exception, the body is run a second time, with the default of its own argument `params` instead of the values, and this outcome is returned.
* C196 `Zfit.Own.plain_pdf_violated`: C196 is violated by `_pdf`: a class that overrides it without the decorator is accepted with a warning (basemodel.py:187-199), and this method is then called with any norm.
* C199 `Zfit.Pdf.ext_log_pdf_violated`: C199 is violated for every extended PDF whose `_ext_log_pdf` is decorated with `supports()`: the *integral* instead of its logarithm is subtracted (`log_normalization` returns the normalisation, basepdf.py:600-602), which is never right.
* C200 `Zfit.Own.positional_obs_violated`: C200 is violated by positional observables: the PDF is an unbinned PDF, with a binned space.
* C200 `Zfit.Own.norm_limits_violated`: C200 is violated by a normalisation range given by its limits, which is accepted with unbinned observables.
* C200 `Zfit.Own.no_name_violated`: C200 is violated for the name: it is said to be created from the name of the unbinned PDF, but is `None`.
* C201 `Zfit.Own.rename_forever_violated`: C201 is violated by an extended PDF with a parameter called `wrapped_yield`: the loop that looks for a free name renames the parameter to the name it looks for next (truncated.py:181-184), so that `TruncatedPDF` never returns, whatever the number of rounds.
* C202 `Zfit.Own.neither_violated`: C202 is violated if both are given and an observable is in neither: the projection is made, without integrating over it.
* C202 `Zfit.Own.foreign_violated`: C202 is violated by observables that the PDF does not have, given with limits: all its own are integrated over.
* C203 `Zfit.Own.as_func_violated`: C203 is violated by a sum: as a function it does not have the parameters of the PDFs that are added, although it depends on them.
* C204 `Zfit.Frame.weightsname_violated`: C204 is violated: with the weights under the name of an observable, the table has the weights in place of the observable.
* C205 `Zfit.Frame.weights_observable_violated`: C205 is violated: an observable asked for that is also the column of the weights is dropped without notice.
* C205 `Zfit.Frame.series_violated`: C205 is violated: a `pd.Series` needs `obs`.
* C206 `Zfit.Frame.alias_alone_violated`: C206 is violated: with `obs_alias` alone, the observables have the names of the branches and not the names given for them, and if one of them is also a name given, it has the values of another branch.
* C207 `Zfit.Frame.unknown_dropped_violated`: C207 is violated: a name that the data does not have is dropped without notice if there are others, `value(["x", "nope"])`.
* C207 `Zfit.Frame.axes_violated`: C207 is violated: `value(axis=(0, 1))` raises although both axes exist (the last dimension is squeezed).
* C207 `Zfit.Frame.always_list_violated`: C207 is violated: `unstack_x(always_list=True)` of data with one observable is not a list.
* C208 `Zfit.Lims.with_obs_cuts_violated`: C208 fails for `with_obs` with only some observables of a function: with its first observable the new space keeps the function, and every test of a point is an error; with another one the function disappears without an error, the new space has no limits, and every point counts as inside.
* C211 `Zfit.Lims.limits_and_axes_violated`: C211 fails if limits and axes are given independently: bins from 0 to 5 in limits from 0 to 10 are accepted.
* C211 `Zfit.Lims.new_limits_violated`: C211 fails for new limits of a binned space: `with_limits` keeps the old bins.
* C211 `Zfit.Lims.axes_order_violated`: C211 fails for axes in another order than the observables: the limits are taken in the order of the axes and given to the observables in their own order, so that `x` gets the limits of `y`.
* C212 `Zfit.Lims.obs_ignored_violated`: C212 fails for observables and a space as limits: the observables are not looked at, asking for `x` with limits in `y` gives a space in `y`.
* C212 `Zfit.Lims.function_limits_violated`: C212 fails for two spaces if the limits are a function: they are refused.
* C213 `Zfit.Sp.pieces_order_violated`: C213 fails for unions that share an observable: whether they can be combined depends on the order of the pieces. A union of two intervals can be combined with itself, but not with the same union in the other order.
* C213 `Zfit.Sp.pieces_dropped_violated`: C213 fails for unions that share an observable: pieces without a partner are left out without an error. Two single intervals that differ are refused.
* C214 `Zfit.Lims.subspace_binning_violated`: C214 fails for `get_subspace`: the subspace of a binned space has none, whereas `with_obs` keeps it.
* C215 `Zfit.Lims.one_side_violated`: C215 fails if only one side is given: `Space("x", lower=0)` is a space without limits, without an error.
* C215 `Zfit.Lims.two_ways_violated`: C215 fails if limits are given twice: `Space("x", limits=(0, 1), lower=5, upper=6)` is the interval from 5 to 6, and `Space("x", (0, 1), limits=(5, 6))` the one from 0 to 1, without an error.
* C215 `Zfit.Lims.numpy_numbers_violated`: C215 fails for numbers that are neither Python integers nor floats: `Space("x", np.int64(0), np.int64(5))` takes the second number as a binning and is a `TypeError`, although the keywords `lower` and `upper` accept the same numbers.
* C217 `Zfit.Plot.height_in_range_violated`: **C217 fails for PDFs of several observables.** They are projected on the observable drawn, and the projection is normalised over the range drawn: drawn over [0, 5] instead of [0, 10], the same 100 events have twice the height.
* C217 `Zfit.Plot.other_observable_violated`: **C217, the observable drawn.** A PDF of one observable is drawn also over a space of another observable, which is then written on the axis.
* C218 `Zfit.Plot.components_of_yield_violated`: **C218 fails for a sum of extended PDFs.** With yields 30 and 10 the curve of the sum is at 40; each component is drawn with its yield and in addition with its fraction, 30 · 3/4 and 10 · 1/4, that is 25 in total.
* C218 `Zfit.Plot.components_add_up_violated`: **C218 fails for an extended sum by fractions.** The curve of a sum with 40 events is at 40, its components, which are not extended, at 10/40 and 30/40 of 1.
* C219 `Zfit.Plot.options_given_violated`: **C219 fails.** An option given when drawing is replaced by the default of the plotter: asked for 2 points, three are drawn.
* C219 `Zfit.Plot.own_function_violated`: **C219, the function given.** The function given to a plotter is never called: whatever it is, the result is the same.
* C219 `Zfit.Plot.plotkwargs_changed_violated`: **C219, the dictionary of the caller.** The label is written into the dictionary the caller gave for `plotkwargs`; drawing a second PDF with it, or the components of a sum, gives every curve the label of the first.
* C222 `Zfit.Phys.voigt_positive_violated`: **C222 fails for very small `gamma`.** With `√2 sigma = 1` and `gamma = 1e-13`, the value at a distance of 6.1 from `m` is negative.
* C222 `Zfit.Phys.voigt_zero_violated`: **C222 fails for `gamma = 0`.** The value is zero at a distance of `10 √2 sigma` or more, and its logarithm not a number to fit with.
* C223 `Zfit.Kde.fft_cut_violated`: **C223 does not hold** for the default of the support: for four events from 0 to 1 in the space from 0 to 1, with the bandwidth 1/2, the kernel is cut at the distance 3/5 although it reaches to the distance 1: at the lower end of the grid the kernels of the events at 2/3 and 1 are missing.
* C224 `Zfit.Kde.fft_unit_violated`: **C224 does not hold** for the default of the support, the volume of the space times 1.2: the same sample in a unit ten times smaller is not cut any more.
* C226 `Zfit.Kde.fft_beyond_violated`: **C226 does not hold** beyond the grid: there the density is constant, so that for every sample the density at any distance from it is the one at the end of the grid.
* C226 `Zfit.Kde.fft_beyond_positive_violated`: **C226 does not hold**: four events from 0 to 1 and a kernel that reaches to the distance 1 give a positive density at every distance.
* C227 `Zfit.Kde.fft_method_violated`: **C227 does not hold**: every other choice of `fft_method` raises, for all samples, unless the kernel reaches exactly from one end of the grid to the other.
* C227 `Zfit.Kde.fft_method_shift_violated`: **C227 does not hold** in the remaining case either: the values are those of the next point of the grid.
* C229 `Zfit.Kde.isj_bandwidth_violated`: **C229 does not hold**, for any sample of two different events: the Gaussian with which the sample is smoothed is more than twice as wide as the bandwidth reported, the range of the sample having been taken for the width of the grid.
* C230 `Zfit.Kde.isj_unit_violated`: **C230 does not hold** for narrow samples: the margin of the grid is at least 6 in every unit.
* C230 `Zfit.Kde.isj_sample_violated`: **C230 does not hold** for narrow samples: the binned sample from which the bandwidth is found is another one in another unit.
* C231 `Zfit.Kde.adaptive_weights_violated`: **C231 does not hold** for the exact KDEs: the bandwidths of a weighted sample have the same ratios whatever the weights are, since the density that they are taken from is the one without the weights.
* C231 `Zfit.Kde.adaptive_sample_violated`: C231 is violated: for the events 0, 1, 2, 3 with the weights 2, 1, 1, 1 the adaptive bandwidths are not proportional to the inverse root of a KDE of the weighted sample, whatever its width: those at 0 and 3 are equal although the weighted density is larger at 0.
* C232 `Zfit.Own.integral_error_violated`: C232 is violated by a function that raises a `TypeError`: with required arguments it is run once, but what is raised is an `AssertionError`; with defaults for `x` and the norm it is run four times before.
* C233 `Zfit.Own.integral_norm_violated`: C233 is violated: a function registered with `supports_norm` whose argument `norm_range` has a default never gets the norm: the first call, with the argument `norm`, is repeated without it, and its outcome is taken for the normalised integral.
* C235 `Zfit.Run.looking_violated`: C235 is violated: looking at the setting of a warning that has none, as of "chi2_counts_small", switches the warning off.
* C236 `Zfit.Run.removed_violated`: C236 is violated: at the fifth removal the warning is given again, and so on for ever.
* C238 `Zfit.Run.raising_changes_violated`: C238 is violated: after something was computed, asking strictly for another number of CPUs raises a `RuntimeError`, and `n_cpu` has changed all the same.
* C239 `Zfit.Run.threads_violated`: C239 is violated: a call that is not strict, which is the default, never sets the number of threads between operations, whatever was done before.
* C239 `Zfit.Run.unstrict_violated`: C239 is violated: after a strict call, a call that is not strict leaves TensorFlow with one thread within an operation.
* C240 `Zfit.Run.changing_violated`: C240 is violated by features that will change: the warning looks at the identifiers of the features that were changed, and is given again every time.
* C241 `Zfit.Loss.create_new_more_violated`: C241 is violated: from an unbinned loss of one dataset, one of two datasets cannot be made: the fit range `[None]` of the one dataset is handed on. Directly it can be made.
* C241 `Zfit.Loss.create_new_array_violated`: C241 is violated: an array, which the constructor accepts, is refused by `create_new` of every unbinned loss that has datasets, since the loss has a list of fit ranges, be they all `None`.
* C242 `Zfit.Loss.comparable_fresh_violated`: C242 is violated: made before the first evaluation, the losses find each its own constant: both begin at 10000, whatever the models are.
* C242 `Zfit.Loss.comparable_constraints_violated`: C242 is violated: a binned loss subtracts the constant for every parameter of a constraint: a constraint without any effect on the full value shifts the value.
* C243 `Zfit.Loss.simple_errordef_violated`: C243 is violated: of a function that has the attribute `errordef`, no loss can be made by `create_new`, whatever is given, unless another function is given: its own error definition is handed on.
* C243 `Zfit.Loss.simple_gradient_violated`: C243 is violated: gradient, hessian and compilation are lost.
* C245 `Zfit.Loss.user_options_violated`: C245 is violated: a chi2 completes the dictionary it is given; a loss made with the same dictionary afterwards has these options.
* C248 `Zfit.Loss.default_converter_violated`: C248 is violated: if making a `SimpleLoss` fails with a `TypeError` about anything but an unexpected keyword argument, `None` is returned as the loss.
* C251 `Zfit.Sub.binned_class_violated`: **C251 is violated.** A binned PDF without the decorator on `_counts` is accepted although the check that is written for binned PDFs would refuse it: nothing calls the check.
* C254 `Zfit.Sup.empty_result_violated`: **C254 is violated.** With `DefaultToyStrategy` a `RuntimeError` in the loss is swallowed and a result returned that has no parameters and no loss: the one that the strategy is created with.
* C254 `Zfit.Sup.stale_result_violated`: **C254 is violated.** With a strategy given as an instance a minimisation that fails with a `RuntimeError` returns the result of an earlier one.
* C255 `Zfit.Sup.maxiter_property_violated`: **C255 is violated.** The limit that was given as a number cannot be read from the minimiser outside of a minimisation.
* C256 `Zfit.Sup.subclass_violated`: **C256 is violated.** A minimiser that has a list of methods, such as `ScipyBFGS`, cannot be subclassed: the definition fails with an `AttributeError`, because the base class has no list.
* C256 `Zfit.Sup.shared_violated`: **C256 is violated.** Methods added to a subclass are accepted by its parent, if the parent got its list after the subclass was defined.
* C260 `Zfit.Auto.partial_options_violated`: C260 fails: with `max_draws=100` and ten points in a batch a partial integral over one observable still evaluates the function at 40000 points for each event.
* C260 `Zfit.Auto.sampler_violated`: C260 fails: the points are those of the Halton sequence whatever `mc_sampler` is set: no integral changes with it.
* C263 `Zfit.AutoGrad.chunked_gradient_violated`: C263 is violated: the integral of the constant `θ` over the square of side two is `4 θ`. In chunks the gradient of the integral is given as one instead of four, and the gradient of its logarithm at `θ = 2` as one instead of a half.
* C265 `Zfit.Tape.gradient_exists_violated`: **C265**, where it fails: `p0 * p0` has no gradient with respect to `p0` and `p1`, although both partial derivatives exist.
* C267 `Zfit.Tape.hessian_exists_violated`: **C267**, where it fails: `3 * p0` has a gradient but no Hessian, and `p0 * p1` has a Hessian but with `hessian="diag"` there is none, although all second derivatives exist.
* C270 `Zfit.Sample.default_sample_follows_pdf_violated`: C270 is violated without a given maximum. For the pdf `peak` ten out of eleven events should be in the narrow region; the event returned is outside of it with a probability of at least 4/5 * 999/1000, because its maximum is estimated from proposals that miss the narrow region.
* C272 `Zfit.Dat.set_weights_violated`: C272 is violated: three weights are set for two events, without an error.
* C274 `Zfit.Sample.narrow_piece_violated`: C274 is violated. If the first piece of the limits has less than one in 800000 of the volume, then no event is ever sampled in it, whatever the pdf and its integral over this piece, the number of events and the random numbers. (At most 800000 proposals are made in one pass, and the number of proposals in the piece is rounded down to zero in each pass.)
* C279 `Zfit.BinPdf.counts_cycle_violated`: The property C279 fails for a cyclic order of three observables: the contents are those of other bins.
* C279 `Zfit.BinPdf.counts_other_binning_violated`: The property C279 fails for another binning: the contents returned are those of the bins of the PDF. Here the PDF is uniform with content 1 in [0, 1] and [1, 2]; for the bins [0, 1/2] and [1/2, 2] it says 1 and 1 too.
* C280 `Zfit.BinPdf.loss_other_binning_violated`: The property C280 fails for data with other bins: the loss is not refused, and what the PDF predicts for one bin is compared with what is observed in another. The data here agrees with the prediction in every one of its bins, and the loss is not zero.
* C280 `Zfit.BinPdf.loss_broadcast_violated`: The property C280 fails for chi2 losses also for data with a single bin: its content is compared with each bin of the PDF. (A likelihood refuses it.)
* C282 `Zfit.BinPdf.sample_params_violated`: The property C282 fails for the yield of an extended PDF: with the yield given as 2 the number of events is drawn with the current yield 1.
* C283 `Zfit.BinPdf.sample_binning_violated`: The property C283 fails for limits with other bins: they are accepted, the data has the bins asked for, and its contents are those of the bins of the PDF. Here a single event is in [0, 1/2] with probability 1/2, for a uniform PDF on [0, 2].
* C285 `Zfit.Sp.norm_call_numbers_violated`: C285 is violated by numbers: the limits of two observables are accepted as the norm at creation but not in a call.
* C285 `Zfit.Sp.norm_call_space_violated`: C285 is violated by spaces of some of the observables: refused as the norm at creation, but accepted in a call, where the range then has no limits at all for the other observable.
* C286 `Zfit.Functor.to_truncated_norm_violated`: C286 is violated if the space is given and the norm is not: the norm is then that of the original PDF instead of the new space. A flat PDF on [0, 3], truncated to [2, 5] with the space [2, 5]: `TruncatedPDF` gives 1/3 in the limits, `to_truncated` gives 1, so that the integral of the PDF over its space is three.
* C287 `Zfit.Sp.union_eq_tolerance_violated`: C287 is violated by the tolerance: the pieces are not equal as spaces, but the unions are.
* C287 `Zfit.Sp.union_eq_symm_violated`: C287 is violated: equality of unions is not symmetric.
* C287 `Zfit.Sp.union_eq_repeated_violated`: C287 is violated by repeated pieces: they are not counted, so that unions with different volumes are equal.
* C287 `Zfit.Sp.union_hash_violated`: C287 is violated by the hash: equal unions are different members of a set if their observables are in another order.
* C292 `Zfit.Kde.bw_array_events_violated`: C292 is violated for the classes on a grid: "an array-like object with the same size as *data*" (documentation of all classes) is refused if there are more events than points of the grid.
* C292 `Zfit.Kde.bw_array_padding_violated`: C292 is violated: an array with one entry per point of the grid, which works without padding, is an error with padding, because the padding takes its entries at the positions of the events.
* C292 `Zfit.Kde.bw_reported_violated`: C292 is violated: for arrays and adaptive rules the parameter `bandwidth` of the KDE is -999999 and not the bandwidth.
* C294 `Zfit.Lab.product_default_wins_violated`: Violation of C294: a space without labels (its labels are the names of its observables) takes the label away that another space gives to an observable that they share, if it comes later; if it comes first, it does not.
* C294 `Zfit.Lab.product_axes_labels_violated`: Violation of C294: spaces with axes only and a label do not combine (unless the label happens to have two characters), although the same spaces without labels do.
* C294 `Zfit.Lab.product_dropped_labels_violated`: The same holds for spaces that had observables: taking them away keeps the labels where nobody can see them.
* C294 `Zfit.Lab.union_labels_violated`: Violation of C294 (unions): whatever the labels of the spaces are, if they have limits the labels of their union are the names of the observables.
* C295 `Zfit.Kde.isj_norm_violated`: Violation of C295: the sum that stands for the norm of a derivative is too small by a factor of four (the coefficients of the cosine transform are halved, and the sum is multiplied by one half instead of two).
* C295 `Zfit.Kde.isj_time_violated`: Violation of C295: at every time, what the code takes for the best time is at least 4^(2/5) > 1.7 times that of the paper.
* C295 `Zfit.Kde.isj_root_violated`: Violation of C295: a root of the code is never a solution of the equation of the paper, whose best time is shorter.
* C296 `Zfit.ParF.set_nan_violated`: C296 is violated: NaN can be set in eager mode, whatever the limits, and is the value; graph mode refuses it.
* C296 `Zfit.ParF.set_big_limit_violated`: C296 is violated: an upper limit of at least `2 ^ 30` can not be set, not even by a parameter that has this value (as at the end of a `with` block), nor can a parameter be created with it.
* C296 `Zfit.ParF.set_equal_limits_violated`: C296 is violated: a parameter with equal limits can not be created.
* C296 `Zfit.ParF.set_graph_violated`: C296 is violated: graph mode refuses the limits.
* C297 `Zfit.ParF.value_far_violated`: C297 is violated: with limits 1 and 2, after `assign(2.0**60)` the value is 0.
* C297 `Zfit.ParF.value_infinite_violated`: C297 is violated: after `assign` of an infinite number `value()` is NaN as soon as there is a limit.
* C298 `Zfit.Dat.saved_unlimited_violated`: C298 is violated: data whose observables have no limits cannot be saved at all.
* C298 `Zfit.Dat.saved_union_violated`: C298 is violated: data in a union of several spaces cannot be saved.
* C298 `Zfit.Dat.saved_guaranteed_violated`: C298 is violated: data created with `guarantee_limits=True` loses the events outside the limits when it is loaded.
* C298 `Zfit.Dat.saved_label_violated`: C298 is violated: the label is not saved; the loaded data has the default label, whatever the label was.
* C299 `Zfit.Constr.saved_matrix_violated`: C299 is violated: a constraint with correlations cannot be saved, however its covariance matrix is given (`cov` or `uncertainty`, list of lists or array).
* C299 `Zfit.Constr.saved_sigma_violated`: C299 is violated: a constraint with a single number or an array as `sigma` cannot be saved, although the same constraint with the list of these numbers can.
* C300 `Zfit.Hs3.saved_range_violated`: C300 is violated: a fit range is lost. The likelihood of one event at 3 in a uniform PDF on (0, 10), with the fit range (2, 4), is log 2; after saving and loading it is log 10.
* C300 `Zfit.Hs3.saved_options_violated`: C300 is violated: the options are lost; the loaded likelihood has the default options, whatever they were.
* C303 `Zfit.Functor.conditional_limits_violated`: C303 is violated for a condition outside the limits of the parameter: the density is that with the parameter at its limit, here the density with the parameter at 10 for an event with the condition 12.
* C304 `Zfit.Functor.conditional_sample_several_violated`: C304 is violated for wrapped PDFs of several observables: `sample` never succeeds, since only the first of the drawn columns is kept.
* C306 `Zfit.Loss.unit_zero_violated`: C306 is violated for an event with the density zero: `1e-307` is added in every unit, so that the difference of the likelihood between a point where the density is zero and one where it is not depends on the unit.
* C307 `Zfit.Dat.concat_index_space_violated`: C307 is violated by a space along the index: the data made with it from one array is cut, the joined data is not, and has events outside its own limits.
* C307 `Zfit.Dat.concat_obs_names_limits_violated`: C307 is violated by names along the observables: they give the order of the columns, but the limits of the datasets are lost; along the index they are kept (`concat_index_names`).
* C307 `Zfit.Dat.concat_index_unknown_name_violated`: C307 is violated along the index by a name that no dataset has: it is dropped silently, along the observables it is refused.
* C308 `Zfit.Acc.printed_limit_violated`: C308 is violated by the column "at limit": a fit that ended at the limit is printed as not at the limit once the parameter has been set to another value.
* C308 `Zfit.Acc.printed_frozen_violated`: C308 is violated by a frozen result: there is the heading, but no cell under it.
* C308 `Zfit.Acc.printed_upper_violated`: C308 is violated by an upper error that is negative: it is printed with two signs.
* C310 `Zfit.Sp.space_le_violated`: C310 is violated in both directions: two disjoint intervals are `<=`, and an interval inside another is not.
* C310 `Zfit.Sp.space_le_union_violated`: C310 is violated: a space cannot be compared with a union, not even with one that it is a piece of.
* C313 `Zfit.Run.mode_graph_ignored_violated`: Violation of C313: `ZFIT_MODE_GRAPH`, whose warning says to use `ZFIT_GRAPH_MODE` instead, has no effect at all, whatever its text.
* C313 `Zfit.Run.graph_mode_not_decisive_violated`: Violation of C313: `ZFIT_GRAPH_MODE` does not decide: with the deprecated variable at zero everything is eager, although the new one asks for graphs.
* C313 `Zfit.Run.old_names_disagree_violated`: Violation of C313: `ZFIT_EXPERIMENTAL_DO_JIT=0` has no effect, and is not even looked at, if `ZFIT_DO_JIT` is set to something else.
* C313 `Zfit.Run.deprecation_warning_violated`: Violation of C313: who uses `ZFIT_EXPERIMENTAL_DO_JIT` is not told that it is deprecated; who uses `ZFIT_DO_JIT` is told that `ZFIT_EXPERIMENTAL_DO_JIT` is.
* C315 `Zfit.Cont.iteration_error_violated`: C315 fails for generators in which a `TypeError` or an `AttributeError` is raised: the error is lost and the generator counts as one thing.
* C318 `Zfit.Functor.product_follows_parameters_violated`: C318 fails as stated for functions: `a * b * func` does not follow `a`, although `a * (b * func)` does.
