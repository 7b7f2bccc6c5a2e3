{"id": "C01", "title": "Reordering observables never re-pairs an observable with another axis", "statement": "Whatever chain of successful with_obs / with_axes / with_autofill_axes (without overwrite) calls is applied to a coordinates object or Space that has both observables and axes, every remaining observable is still attached to the axis (and, for a Space, to the limits) it had at the start, and the final order is the order asked for in the last call.", "quantifier": "every coordinates object with distinct observables, every finite chain of reorder requests", "why_tests_cant": "the number of permutations and chains is unbounded; a unit test only tries a few orders", "anchors": ["zfit/core/coordinates.py:Coordinates.with_obs", "zfit/core/coordinates.py:Coordinates.with_axes", "zfit/core/coordinates.py:Coordinates.get_reorder_indices", "zfit/core/space.py:Space.with_obs"]}
{"id": "C02", "title": "reorder_x moves whole columns by observable and is undone by the opposite call", "statement": "reorder_x(x, x_obs=o) returns the columns of x in the order of the object's observables: the column labelled by an observable in the input is the column of that observable in the output; calling with func_obs instead of x_obs on the result gives back the input.", "quantifier": "every array (any number of columns and rows), every permutation of the observables", "why_tests_cant": "all permutations of all sizes; the inverse law fails only for non-involutive permutations, which two- or three-column tests miss", "anchors": ["zfit/core/coordinates.py:Coordinates.reorder_x", "zfit/core/coordinates.py:_reorder_indices"]}
{"id": "C03", "title": "with_obs accepts or rejects exactly by the documented superset/subset rule", "statement": "with_obs(obs) raises ObsIncompatibleError exactly when the observables do not overlap, or one is not contained in the other as the allow_superset/allow_subset flags require; AxesIncompatibleError exactly when obs is None and there are no axes; otherwise it returns the owned observables in requested order. with_axes decides the same for axes, and if there are none yet it accepts any axes that are as many as the observables.", "quantifier": "every pair of observable lists and flag combination", "why_tests_cant": "decision table over arbitrary lists and flags", "anchors": ["zfit/core/coordinates.py:Coordinates.with_obs"]}
{"id": "C04", "title": "Equality of coordinates and spaces is an equivalence compatible with hashing", "statement": "== on Coordinates and on Space is reflexive, symmetric and transitive and equal objects have equal hashes, so that dictionaries keyed by spaces (norm caches, analytic integrals) find the right entry.", "quantifier": "all triples of objects", "why_tests_cant": "a relational law over all triples; tolerance-based comparison breaks it only for adversarial values", "anchors": ["zfit/core/coordinates.py:Coordinates.__eq__", "zfit/core/space.py:BaseSpace.__eq__", "zfit/core/space.py:compare_spaces_equal_static", "zfit/core/space.py:BaseSpace.__hash__"]}
{"id": "C05", "title": "Space.inside / Space.filter select exactly the points within the limits", "statement": "For a rectangular space, inside(x) is true exactly for the events all of whose coordinates satisfy lower <= x <= upper; filter(x) returns exactly these events, in input order with multiplicity; filtering twice changes nothing. Numbers and one-dimensional arrays are events of a one-dimensional space and refused otherwise; a space without limits raises.", "quantifier": "every rectangular space of any dimension, every list of events", "why_tests_cant": "universally quantified over data and dimension including boundary points", "anchors": ["zfit/core/space.py:inside_rect_limits", "zfit/core/space.py:Limit.inside", "zfit/core/space.py:Limit.filter"]}
{"id": "C06", "title": "MultiSpace is the union of its pieces and its area is their sum", "statement": "A space added from several spaces that all have observables, or that all have axes and no observables (nested in any way) is flattened to the leaf spaces in order, contains a point exactly when one of the leaves does, and its area is the sum of the leaf areas; adding one space yields that space.", "quantifier": "every tree of additions of spaces that all have observables or that all have axes only, every point", "why_tests_cant": "arbitrary nesting depth", "anchors": ["zfit/core/space.py:MultiSpace.__new__", "zfit/core/space.py:MultiSpace._inside", "zfit/core/space.py:MultiSpace._rect_area"]}
{"id": "C07", "title": "Combining spaces gives the cartesian product with consistent limits", "statement": "combine_spaces(s1,...,sn) over rectangular single spaces has as observables the ordered union of the inputs' observables; a point is inside exactly if each factor contains the projection of the point; if two factors give different limits for the same observable an error is raised instead.", "quantifier": "every list of spaces with arbitrarily overlapping observables", "why_tests_cant": "arbitrary number of factors and overlaps", "anchors": ["zfit/core/space.py:combine_spaces", "zfit/core/dimension.py:common_obs"]}
{"id": "C08", "title": "Grouping by shared observables yields the connected components", "statement": "obs_subsets(dims) returns groups that partition the inputs, where two inputs sharing an observable (directly or through a chain) are in one group and groups do not share observables.", "quantifier": "every list of dimensional objects", "why_tests_cant": "wrong only for bridging dimensions and particular orders", "anchors": ["zfit/core/dimension.py:obs_subsets"]}
{"id": "C09", "title": "Overlap of limits is detected independent of the order", "statement": "limits_overlap(spaces) is true exactly when two of the given one-dimensional intervals overlap by more than a point, independent of the order of the spaces.", "quantifier": "every list of intervals, every order", "why_tests_cant": "fails only for containment in one particular order", "anchors": ["zfit/core/dimension.py:limits_overlap", "zfit/models/truncated.py:check_overlap"]}
{"id": "C10", "title": "A parameter's value never leaves its limits", "statement": "After any history of set_value, assign, limit changes, temporary sets and randomisations, value() of a parameter with limits lies within the current [lower, upper], as long as the lower limit is not above the upper one.", "quantifier": "every history of operations on a parameter", "why_tests_cant": "history quantifier", "anchors": ["zfit/core/parameter.py:Parameter.value", "zfit/core/parameter.py:Parameter.set_value", "zfit/core/parameter.py:Parameter.assign"]}
{"id": "C11", "title": "set_value accepts a value exactly if it is within the limits up to the documented tolerance", "statement": "set_value(v) raises ValueError and leaves the parameter unchanged exactly when v is beyond a limit by at least the tolerance min((upper-lower)*1e-5, 1e-7); otherwise value() afterwards is v clipped to the limits. In particular every v strictly within the limits is accepted and read back exactly.", "quantifier": "every parameter with proper limits, every value", "why_tests_cant": "boundary condition over reals", "anchors": ["zfit/core/parameter.py:Parameter.set_value", "zfit/core/parameter.py:Parameter._check_at_limit"]}
{"id": "C12", "title": "Temporary parameter settings are undone, in any nesting and on any exception", "statement": "with param.set_value(v): body restores on exit the value the parameter had before, for arbitrarily nested blocks over arbitrary parameters, whether the bodies finish normally or raise, as long as the bodies do not move the limits past the old value.", "quantifier": "every program of nested temporary settings, every raise point", "why_tests_cant": "arbitrary nesting and crash points", "anchors": ["zfit/util/temporary.py:TemporarilySet", "zfit/core/parameter.py:Parameter.set_value", "zfit/core/parameter.py:set_values"]}
{"id": "C13", "title": "set_values is all or nothing and touches only the named parameters", "statement": "set_values(params, values) either raises and changes no parameter, or sets every listed parameter to its (clipped) value and changes no other parameter.", "quantifier": "every parameter store, every list of assignments", "why_tests_cant": "the failing position is arbitrary", "anchors": ["zfit/core/parameter.py:set_values", "zfit/core/parameter.py:check_convert_param_values_assign"]}
{"id": "C14", "title": "Values given by list, mapping or fit result reach the parameter they belong to", "statement": "Assigning through a list pairs by position, through a mapping by parameter object first and then by name, through a fit result by the parameter's name; length mismatch, missing parameters (unless allow_partial) and dependent parameters are rejected before any parameter changes.", "quantifier": "every non-empty list of parameters, every list of values, mapping or result", "why_tests_cant": "arbitrary key orders and partial overlap", "anchors": ["zfit/core/parameter.py:check_convert_param_values_assign", "zfit/core/parameter.py:assign_values"]}
{"id": "C15", "title": "Parameter names are unique within a model tree", "statement": "An object is constructed only if no two distinct parameters it depends on (through any nesting) carry the same name; otherwise ParamNameNotUniqueError is raised.", "quantifier": "every nested model", "why_tests_cant": "arbitrary nesting depth", "anchors": ["zfit/core/baseobject.py:BaseParametrized._assert_params_unique"]}
{"id": "C16", "title": "get_params returns exactly the parameters selected by its filters", "statement": "get_params(floating, is_yield, extract_independent) returns each selected parameter exactly once: with extract_independent=True the set of independent parameters reachable through composed parameters; floating filters it; asking for a floating filter without extracting independents when dependents are present raises ValueError.", "quantifier": "every dependency graph of parameters and every flag combination", "why_tests_cant": "arbitrary dependency graphs", "anchors": ["zfit/core/baseobject.py:extract_filter_params", "zfit/core/baseobject.py:BaseParametrized._get_params", "zfit/core/parameter.py:BaseComposedParameter.get_params"]}
{"id": "C17", "title": "Cutting data keeps exactly the events inside, with their own weights", "statement": "Data created in a space with limits contains exactly the events inside the space in input order, each with the weight it was given; recreating data from the result is the identity.", "quantifier": "every dataset, weights, space", "why_tests_cant": "all datasets; weight misalignment shows only when events are dropped", "anchors": ["zfit/core/data.py:check_cut_data_weights", "zfit/core/data.py:Data.__init__", "zfit/core/data.py:Data._copy"]}
{"id": "C18", "title": "Data from columns and data from an array select the same events", "statement": "Creating Data from a mapping / DataFrame and from the equivalent array in the same space keeps the same events, also for spaces with several limits.", "quantifier": "every dataset and every (multi-)space", "why_tests_cant": "differs only for multi-dimensional multi-spaces", "anchors": ["zfit/core/data.py:check_cut_datamap_weights", "zfit/core/data.py:check_cut_data_weights"]}
{"id": "C19", "title": "Reordered or sub-selected views of a dataset show the right columns", "statement": "After any chain of with_obs on Data, value() / unstack / lookup of an observable returns that observable's original column.", "quantifier": "every chain of views", "why_tests_cant": "unbounded chains of permutations", "anchors": ["zfit/core/data.py:Data.with_obs", "zfit/core/data.py:LightDataset.with_indices", "zfit/core/data.py:Data._get_permutation_indices"]}
{"id": "C20", "title": "Concatenating datasets keeps all events, columns and weights", "statement": "concat along the index has the events of all inputs in order with their weights (missing weights count as one); concat along observables pairs rows by position, multiplies the weights and rejects different lengths or repeated observables.", "quantifier": "every list of datasets", "why_tests_cant": "arbitrary number of inputs and mixtures of weighted/unweighted", "anchors": ["zfit/core/data.py:concat", "zfit/core/data.py:concat_data_index", "zfit/core/data.py:concat_data_obs"]}
{"id": "C21", "title": "A failed update of a sampler leaves it unchanged", "statement": "SamplerData.update_data / resample either replaces sample and weights together, or raises and leaves the previous sample and weights in place.", "quantifier": "every sampler state and every update", "why_tests_cant": "the crash point is between two assignments", "anchors": ["zfit/core/data.py:SamplerData.update_data", "zfit/_data/binneddatav1.py:BinnedSamplerData.update_data"]}
{"id": "C22", "title": "Binned data reordered by with_obs keeps every bin content at its coordinates", "statement": "For a BinnedData object with_obs(o) yields a histogram whose content at bin indices given by observable name equals the original content at the same indices by name.", "quantifier": "every number of axes, shape, permutation", "why_tests_cant": "wrong only for permutations that are not their own inverse, i.e. at least three axes", "anchors": ["zfit/_data/binneddatav1.py:move_axis_obs", "zfit/_data/binneddatav1.py:BinnedHolder.with_obs"]}
{"id": "C23", "title": "Binning data conserves the weight inside the range and respects observables", "statement": "Converting unbinned data to a binned space puts each event inside the edges into exactly the bin containing it (by observable name), so the sum of contents equals the sum of weights of the events in range.", "quantifier": "every dataset, edges, weights", "why_tests_cant": "all event positions including edges; observable order", "anchors": ["zfit/core/binning.py:unbinned_to_binned", "zfit/core/binning.py:unbinned_to_hist_eager", "zfit/core/binning.py:unbinned_to_binindex"]}
{"id": "C24", "title": "Linear binning conserves total weight and first moment", "statement": "The linear binning used by the grid KDEs distributes each event over the two neighbouring grid points such that the total weight and the weighted mean position are conserved for data within the grid.", "quantifier": "every dataset within the grid, every regular grid", "why_tests_cant": "algebraic identity over reals", "anchors": ["zfit/util/binning.py:_bin_1d_weighted", "zfit/util/binning.py:bin_1d"]}
{"id": "C25", "title": "Fractions of a SumPDF are a partition of one", "statement": "For n pdfs and n-1 given fractions the last fraction is one minus the sum of the others so all fractions sum to one; for extended pdfs the fractions are yield_i / total and the sum's yield is the total; any other number of fractions, or fewer than two pdfs, is rejected.", "quantifier": "every number of pdfs, every values of fractions/yields over time", "why_tests_cant": "all n and all later values of the parameters", "anchors": ["zfit/models/basefunctor.py:_preprocess_init_sum", "zfit/models/functor.py:SumPDF"]}
{"id": "C26", "title": "A product PDF uses each factor once on its own observables", "statement": "ProductPDF.pdf(x) is the product of the factors evaluated at the columns of x belonging to each factor's observables regardless of the order of observables in x; its observables are the ordered union of the factors' observables; and its normalised integral factorises when the observables are disjoint.", "quantifier": "every list of factors and order of observables", "why_tests_cant": "arbitrary overlap structure", "anchors": ["zfit/models/functor.py:ProductPDF", "zfit/models/basefunctor.py:extract_daughter_input_obs"]}
{"id": "C27", "title": "A truncated PDF is zero outside and proportional inside", "statement": "TruncatedPDF is zero outside all its limits, equals the wrapped pdf inside, and its limits are rejected if they overlap; its scaled yield is the yield times the covered fraction.", "quantifier": "every list of limits and every point", "why_tests_cant": "arbitrary number of limits, boundary points", "anchors": ["zfit/models/truncated.py:TruncatedPDF", "zfit/models/truncated.py:check_overlap"]}
{"id": "C28", "title": "A cached PDF returns what the wrapped PDF would return", "statement": "After any sequence of evaluations and parameter changes CachedPDF.pdf(x, norm) equals the wrapped PDF's pdf(x, norm) at the current parameter values (up to the documented tolerance).", "quantifier": "every history of calls", "why_tests_cant": "history dependent: stale entries need a special sequence of calls", "anchors": ["zfit/models/cache.py:CachedPDF._pdf", "zfit/models/cache.py:CachedPDF._integrate"]}
{"id": "C29", "title": "Evaluating a conditional PDF does not change parameters", "statement": "pdf, integrate and sample of a ConditionalPDFV1 leave the values of all parameters as they were.", "quantifier": "every call history", "why_tests_cant": "side effect visible only afterwards", "anchors": ["zfit/models/conditional.py:ConditionalPDFV1._pdf", "zfit/models/conditional.py:ConditionalPDFV1._single_hook_integrate", "zfit/models/conditional.py:ConditionalPDFV1._single_hook_sample"]}
{"id": "C30", "title": "Integration is additive over limits and normalised over the norm range", "statement": "integrate(limits, norm) over several limits is the sum over the pieces, integrate(norm, norm=norm) is 1 and pdf(x, norm) = pdf(x, norm=False)/integrate(norm, norm=False), whichever of the overridable hooks a model implements.", "quantifier": "every model (any subset of hooks overridden, any failing with NotImplemented), any number of limits", "why_tests_cant": "every combination of overridden hooks and exceptions", "anchors": ["zfit/core/basemodel.py:BaseModel.integrate", "zfit/core/basemodel.py:BaseModel._norm_integrate", "zfit/core/basemodel.py:BaseModel._limits_integrate", "zfit/core/basepdf.py:BasePDF._norm_pdf"]}
{"id": "C31", "title": "log_pdf is the logarithm of pdf", "statement": "For every pdf, point and norm: log_pdf(x, norm) = log(pdf(x, norm)).", "quantifier": "every model and every combination of hooks", "why_tests_cant": "differs only on a particular fallback path", "anchors": ["zfit/core/basepdf.py:BasePDF.log_pdf", "zfit/core/basepdf.py:BasePDF._norm_log_pdf", "zfit/core/basepdf.py:BasePDF._single_hook_log_normalization"]}
{"id": "C32", "title": "A pdf can be made extended only once and ext_pdf scales by the yield", "statement": "In every history of create_extended / set_yield calls a pdf gets a yield at most once; a further attempt raises and changes nothing; ext_pdf = pdf * yield, ext_integrate = integrate * yield, and both raise NotExtendedPDFError for non-extended pdfs.", "quantifier": "every history of calls", "why_tests_cant": "history quantifier", "anchors": ["zfit/core/basepdf.py:BasePDF._set_yield", "zfit/core/basepdf.py:BasePDF.create_extended", "zfit/core/basepdf.py:BasePDF.ext_pdf", "zfit/core/basepdf.py:BasePDF.ext_integrate"]}
{"id": "C33", "title": "Arithmetic between parameters, functions and pdfs follows one decision table", "statement": "For every ordered pair of operand kinds the operators * and + either build the documented object or raise the documented error; adding pdfs is possible exactly when both are extended; a pdf product is rejected exactly when its extendedness is ambiguous.", "quantifier": "all ordered pairs of operand kinds and extended flags", "why_tests_cant": "complete table", "anchors": ["zfit/core/operations.py:multiply", "zfit/core/operations.py:add", "zfit/core/operations.py:multiply_pdf_pdf", "zfit/core/operations.py:add_pdf_pdf"]}
{"id": "C34", "title": "Histogram-like PDFs are normalised", "statement": "For every histogram with positive total, relative counts sum to one, density times bin area sums to one, and extended counts sum to the yield; also after bin-wise scaling and summing with fractions.", "quantifier": "every shape and content", "why_tests_cant": "all shapes and contents", "anchors": ["zfit/models/histogram.py:HistogramPDF", "zfit/models/template.py:BinnedTemplatePDFV1", "zfit/models/histmodifier.py:BinwiseScaleModifier", "zfit/models/binned_functor.py:BinnedSumPDF"]}
{"id": "C35", "title": "Integrating a binned PDF over a range counts exactly the covered fraction of bins", "statement": "The integral of a binned density over [a,b] is the sum over bins of content times covered fraction: the whole range gives the total, adjacent ranges add up, and a range outside the binning gives zero.", "quantifier": "every binning and range", "why_tests_cant": "range boundary relative to bin edges", "anchors": ["zfit/core/binnedpdf.py:binned_rect_integration", "zfit/core/binnedpdf.py:cut_edges_and_bins"]}
{"id": "C36", "title": "Binned PDFs agree with their unbinned interface outside the binning", "statement": "For a binned pdf evaluated at unbinned points outside its binning the density is zero and its logarithm is minus infinity.", "quantifier": "every binning and point", "why_tests_cant": "only for points out of range", "anchors": ["zfit/core/binnedpdf.py:BaseBinnedPDF.pdf", "zfit/core/binnedpdf.py:BaseBinnedPDF.log_pdf"]}
{"id": "C37", "title": "Hooks overridden in a binned PDF are honoured", "statement": "If a binned pdf implements its own _sample, _ext_integrate etc. the public method returns that result; ext_integrate over several limits is the sum of the extended integrals; create_sampler(params=...) uses these parameter values.", "quantifier": "every subclass and combination of hooks", "why_tests_cant": "depends on which hook is overridden and which limits are passed", "anchors": ["zfit/core/binnedpdf.py:BaseBinnedPDF._call_sample", "zfit/core/binnedpdf.py:BaseBinnedPDF._auto_ext_integrate", "zfit/core/binnedpdf.py:BaseBinnedPDF.create_sampler"]}
{"id": "C38", "title": "Adding losses adds their values", "statement": "For losses of the same class (l1 + l2).value() = l1.value() + l2.value(), and so for any chain: models, data and constraints are concatenated (constraints in both are counted twice, as documented), options that change the value are kept; different classes raise ValueError.", "quantifier": "every pair (and chain) of losses", "why_tests_cant": "arbitrary lists", "anchors": ["zfit/core/loss.py:BaseLoss.__add__", "zfit/core/loss.py:UnbinnedNLL._loss_func", "zfit/core/loss.py:SimpleLoss.__add__"]}
{"id": "C39", "title": "The numerical offset of a likelihood never changes differences", "statement": "loss.value(full=True) does not depend on the offset and for full=False differences between two parameter points equal the differences of the full value, for any offset fixed at precompilation.", "quantifier": "every dataset, weights, parameter points", "why_tests_cant": "algebraic identity for all data", "anchors": ["zfit/core/loss.py:_unbinned_nll_tf", "zfit/core/loss.py:_nll_calc_unbinned_tf", "zfit/core/loss.py:BaseLoss.check_precompile", "zfit/_loss/binnedloss.py:poisson_loss_calc"]}
{"id": "C40", "title": "A loss pairs every model with its data or is rejected", "statement": "Constructing a loss from lists of models and data pairs them by position and raises if the numbers differ.", "quantifier": "all lists", "why_tests_cant": "mismatching lengths", "anchors": ["zfit/core/loss.py:BaseLoss._input_check", "zfit/core/loss.py:BaseLoss._check_convert_model_data"]}
{"id": "C41", "title": "Chi-squared losses weigh each bin by its variance", "statement": "BinnedChi2 is the sum over bins of (expected-observed)^2 / variance, empty bins being ignored or contributing as documented; with errors='expected' the variance is the expected count.", "quantifier": "every histogram", "why_tests_cant": "all contents incl. empty bins", "anchors": ["zfit/_loss/binnedloss.py:chi2_loss_calc", "zfit/_loss/binnedloss.py:BinnedChi2"]}
{"id": "C42", "title": "Accept-reject sampling returns exactly n accepted events inside the limits", "statement": "Whatever the random numbers, if accept_reject_sample returns, it returns exactly n events, all inside the limits and each produced by an accepted proposal.", "quantifier": "every random stream, efficiency, n", "why_tests_cant": "random schedule quantifier", "anchors": ["zfit/core/sample.py:accept_reject_sample"]}
{"id": "C43", "title": "Sampling over several limits returns n events in total", "statement": "Uniform proposals and model samples over several limits are split such that the pieces add up to exactly n and each event lies in its piece.", "quantifier": "every n and list of limits", "why_tests_cant": "rounding for all n and fractions", "anchors": ["zfit/core/sample.py:UniformSampleAndWeights", "zfit/core/basemodel.py:BaseModel._limits_sample"]}
{"id": "C44", "title": "The compiled-function cache is bounded and never returns another function's result", "statement": "For every sequence of calls, the number of cached graphs never exceeds the limit, a call is answered by the graph compiled for the same arguments, and an invalidated graph is never used again.", "quantifier": "every call history, cache size change, invalidation", "why_tests_cant": "history quantifier", "anchors": ["zfit/z/zextension.py:FunctionWrapperRegistry", "zfit/util/cache.py:FunctionCacheHolder", "zfit/util/cache.py:invalidate_graph"]}
{"id": "C45", "title": "Changing an object invalidates the caches of everything that depends on it", "statement": "When a graph-cachable object is changed, then for every graph of dependencies without cycles every object registered (transitively) as depending on it has its cache cleared, and unrelated objects keep theirs; an object that depends on itself can never be changed (RecursionError).", "quantifier": "every dependency graph (also cyclic)", "why_tests_cant": "arbitrary graphs", "anchors": ["zfit/util/cache.py:GraphCachable", "zfit/util/cache.py:GraphCachable.add_cache_deps", "zfit/util/cache.py:GraphCachable.reset_cache_self"]}
{"id": "C46", "title": "Run modes set temporarily are restored", "statement": "with run.set_graph_mode(...) / set_autograd_mode(...) blocks, arbitrarily nested and left normally or by an exception, restore the mode that was active before; functions of a kind that is first defined while a mode is active follow this mode and change no other kind.", "quantifier": "every nesting and raise point", "why_tests_cant": "nesting and crash points", "anchors": ["zfit/util/execution.py:RunManager.set_graph_mode", "zfit/util/execution.py:RunManager.set_autograd_mode", "zfit/util/graph.py:JIT"]}
{"id": "C47", "title": "Reserved CPUs are always given back", "statement": "with run.aquire_cpu(n): body returns the reserved CPUs after the block however it is left; no CPU is handed out twice at the same time.", "quantifier": "every nesting and raise point", "why_tests_cant": "crash points", "anchors": ["zfit/util/execution.py:RunManager.aquire_cpu"]}
{"id": "C48", "title": "The evaluation budget of a minimiser is respected", "statement": "For every sequence of value/gradient/hessian requests made by a backend the loss is evaluated at most maxiter times per kind; the next request raises MaximumIterationReached, and so do all later ones, without touching parameters.", "quantifier": "every request history", "why_tests_cant": "history quantifier", "anchors": ["zfit/minimizers/evaluation.py:LossEval"]}
{"id": "C49", "title": "NaN losses are pushed back by a growing penalty and given up after the tolerance", "statement": "During consecutive NaN evaluations the reported loss is strictly larger than the last valid one and strictly increasing; after nan_tol consecutive NaNs the minimisation fails; a valid evaluation resets the count.", "quantifier": "every history of valid and NaN evaluations", "why_tests_cant": "history quantifier", "anchors": ["zfit/minimizers/strategy.py:PushbackStrategy", "zfit/minimizers/evaluation.py:LossEval.value"]}
{"id": "C50", "title": "A minimiser leaves no trace when minimisation fails", "statement": "After minimize returns or raises, the minimiser can be used again as if new and, in no-update mode, parameters have the values they had before.", "quantifier": "every raise point", "why_tests_cant": "crash points", "anchors": ["zfit/minimizers/baseminimizer.py:BaseMinimizer._make_stateful", "zfit/minimizers/baseminimizer.py:BaseMinimizer._call_minimize"]}
{"id": "C51", "title": "The stepping minimiser terminates and says valid only if converged", "statement": "BaseStepMinimizer.minimize terminates for every step function and criterion after at most maxiter+1 steps and reports valid exactly when the criterion was met.", "quantifier": "every step function / criterion sequence", "why_tests_cant": "termination for all behaviours", "anchors": ["zfit/minimizers/baseminimizer.py:BaseStepMinimizer._minimize"]}
{"id": "C52", "title": "A FitResult is valid only if it converged and no parameter is at its limit", "statement": "valid implies converged, no parameter at limit and (for the Minuit/scipy/nlopt constructors) that the evaluation budget was not exceeded, and a success reported by a library within the budget and away from limits is valid; finding a new minimum in errors makes it invalid for ever.", "quantifier": "every construction and later history", "why_tests_cant": "decision logic over all flags and histories", "anchors": ["zfit/minimizers/fitresult.py:FitResult.__init__", "zfit/minimizers/fitresult.py:FitResult.valid", "zfit/minimizers/fitresult.py:FitResult.from_minuit"]}
{"id": "C53", "title": "Covariance conversion between matrix and dictionary is lossless", "statement": "dict_to_matrix(matrix_to_dict(m)) = m for symmetric m, the dictionary is symmetric for any m, and a subset of parameters gives the sub-matrix.", "quantifier": "every size", "why_tests_cant": "all sizes", "anchors": ["zfit/minimizers/errors.py:dict_to_matrix", "zfit/minimizers/errors.py:matrix_to_dict", "zfit/minimizers/fitresult.py:FitResult.covariance"]}
{"id": "C54", "title": "Covariance and hesse return what was asked for, whatever was asked before", "statement": "covariance(params, method, weightcorr) returns the covariance for this method and weight correction independent of earlier calls.", "quantifier": "every history of covariance/hesse calls", "why_tests_cant": "history dependent: needs a second call with another correction", "anchors": ["zfit/minimizers/fitresult.py:FitResult.covariance", "zfit/minimizers/fitresult.py:FitResult.hesse"]}
{"id": "C55", "title": "with result: sets the fitted values and restores the previous ones", "statement": "Nested with blocks over arbitrary fit results restore all parameters on exit (LIFO), on normal and exceptional exit.", "quantifier": "every nesting", "why_tests_cant": "nesting", "anchors": ["zfit/minimizers/fitresult.py:FitResult.__enter__", "zfit/minimizers/fitresult.py:FitResult.__exit__"]}
{"id": "C56", "title": "compute_errors uses the requested confidence level also after finding a new minimum", "statement": "If a new minimum is found while computing errors, the errors of the new result are computed with the same sigma/cl, method and tolerance as requested.", "quantifier": "every sequence of new minima", "why_tests_cant": "recursion depth depends on the loss surface", "anchors": ["zfit/minimizers/errors.py:compute_errors"]}
{"id": "C57", "title": "Correlation matrices have unit diagonal and bounded entries", "statement": "covariance_to_correlation of a symmetric positive definite matrix has ones on the diagonal, is symmetric and has entries within [-1,1].", "quantifier": "every size and matrix", "why_tests_cant": "all matrices", "anchors": ["zfit/minimizers/fitresult.py:covariance_to_correlation"]}
{"id": "C58", "title": "Simpson integration is exact for cubic polynomials", "statement": "simpson_integrate uses an odd number of at least three points for every requested number >= 1 and integrates every cubic polynomial exactly over every interval.", "quantifier": "every number of points, interval, cubic", "why_tests_cant": "unbounded number of points", "anchors": ["zfit/core/integration.py:simpson", "zfit/core/integration.py:simpson_integrate"]}
{"id": "C59", "title": "Monte-Carlo integration averages all batches equally and stops", "statement": "The running average after any number of batches equals the plain mean over all batches; the loop stops when the error is below tolerance or the budget is used up, never exceeding the budget by more than one batch.", "quantifier": "every sequence of batches", "why_tests_cant": "unbounded loop", "anchors": ["zfit/core/integration.py:mc_integrate", "zfit/core/integration.py:normalization_nograd"]}
{"id": "C60", "title": "The analytic integral used is the best registered one", "statement": "integrate uses, among the registered integrals whose limits cover the request, one with the largest number of axes and among these the highest priority; registering again for the same axes and limits replaces; if none covers, AnalyticIntegralNotImplemented is raised.", "quantifier": "every registration history", "why_tests_cant": "history quantifier", "anchors": ["zfit/core/integration.py:AnalyticIntegral"]}
{"id": "C61", "title": "Analytic integrals of the polynomial PDFs are the integrals of the polynomials", "statement": "For Legendre, Chebyshev (1st, 2nd kind), Laguerre, Hermite and Bernstein PDFs of any degree with any coefficients the analytic integral over any limits equals the integral of the unnormalised pdf, with and without apply_scaling.", "quantifier": "every degree, coefficients, limits, space", "why_tests_cant": "all degrees", "anchors": ["zfit/models/polynomials.py:legendre_integral", "zfit/models/polynomials.py:func_integral_chebyshev1", "zfit/models/polynomials.py:func_integral_chebyshev2", "zfit/models/polynomials.py:func_integral_laguerre", "zfit/models/polynomials.py:func_integral_hermite", "zfit/models/polynomials.py:func_integral_bernstein"]}
{"id": "C62", "title": "Bernstein PDFs with non-negative coefficients are non-negative and interpolate the end points", "statement": "de_casteljau evaluates the Bernstein polynomial sum_k c_k C(n,k) x^k (1-x)^(n-k); in particular within [0,1] the value lies between the smallest and largest coefficient and equals the first/last coefficient at the ends.", "quantifier": "every degree, coefficients, x", "why_tests_cant": "all degrees", "anchors": ["zfit/models/polynomials.py:de_casteljau", "zfit/models/polynomials.py:bernstein_shape"]}
{"id": "C63", "title": "The numerical shift of Exponential has no observable effect", "statement": "The normalised density of Exponential does not depend on the internal shift and its analytic integral equals the integral of its density; the shift is restored after each call however it ends.", "quantifier": "every lambda != 0, limits, shift, call history", "why_tests_cant": "real identity and crash points", "anchors": ["zfit/models/basic.py:Exponential", "zfit/models/basic.py:_exp_integral_func_shifting"]}
{"id": "C64", "title": "Serialised models are restored with the same parameters", "statement": "Replacing parameters by their names on serialisation and names by parameters on loading is lossless for every nested structure.", "quantifier": "every nested structure", "why_tests_cant": "arbitrary nesting; fails for name collisions", "anchors": ["zfit/serialization/serializer.py:replace_matching", "zfit/serialization/serializer.py:elements_match", "zfit/serialization/serializer.py:Serializer.post_serialize", "zfit/serialization/serializer.py:Serializer.pre_deserialize"]}
{"id": "C65", "title": "Setting the seed makes every random source reproducible", "statement": "set_seed with the same arguments leads to the same seeds for every generator, disabled generators are untouched, and the returned mapping states exactly the seeds used.", "quantifier": "every argument combination and prior state", "why_tests_cant": "all argument combinations", "anchors": ["zfit/settings.py:set_seed"]}
{"id": "C66", "title": "Updating integration options either applies completely or not at all", "statement": "update_integration_options applies all given options, or raises and leaves all options as they were.", "quantifier": "every option combination", "why_tests_cant": "all combinations of valid/invalid options", "anchors": ["zfit/core/basemodel.py:BaseModel.update_integration_options"]}
{"id": "C67", "title": "The internal tolerance of a minimiser shrinks on every update", "statement": "Each retry of a wrapped minimiser multiplies its internal tolerances by a factor between 0.01 and 0.2 (gtol and xtol: by its square root, between 0.1 and 0.45), so tolerances strictly decrease geometrically.", "quantifier": "every criterion value and number of retries", "why_tests_cant": "unbounded retries", "anchors": ["zfit/minimizers/baseminimizer.py:BaseMinimizer._update_tol_inplace"]}
{"id": "C68", "title": "Binned data survives the conversion to unbinned data and back", "statement": "BinnedData.to_unbinned yields one event per bin at the bin centre weighted with the content; binning this dataset in the original binned space gives every bin its original content, and the sum of weights equals the sum of contents.", "quantifier": "every number of axes, strictly increasing edges and contents", "why_tests_cant": "ranges over all shapes and binnings", "anchors": ["zfit/_data/binneddatav1.py:BinnedData.to_unbinned", "zfit/core/binning.py:unbinned_to_binned"]}
{"id": "C69", "title": "Copying a SumPDF keeps its fractions and yield", "statement": "sum.copy() is a SumPDF with the same pdfs, the same fractions and the same yield, and therefore the same pdf and ext_pdf.", "quantifier": "every list of pdfs, fractions and yields", "why_tests_cant": "ranges over all ways a sum can be built", "anchors": ["zfit/core/basepdf.py:BasePDF.copy", "zfit/core/basepdf.py:BasePDF.create_extended", "zfit/models/functor.py:SumPDF"]}
{"id": "C70", "title": "errors(sigma=s) gives the errors of s standard deviations", "statement": "FitResult.errors(sigma=s) computes the interval in which the loss rises by errordef * s^2, for every s; errors and hesse use the same number of standard deviations for the same confidence level.", "quantifier": "every s >= 0, every confidence level", "why_tests_cant": "s = 1 is the only value commonly tested and the only one (with 0) that is right", "anchors": ["zfit/minimizers/fitresult.py:FitResult.errors", "zfit/minimizers/fitresult.py:FitResult._hesse", "zfit/minimizers/errors.py:compute_errors"]}
{"id": "C71", "title": "space1 <= space2 means that space2's limits contain space1's", "statement": "For spaces with the same coordinates, space1 <= space2 holds exactly if every limit of space1 lies within a limit of space2, so it can be used to decide whether one range can handle another.", "quantifier": "every pair of spaces with the same observables or axes and any limits", "why_tests_cant": "ranges over all pairs of limits; the commonly tested pairs share their lower edge", "anchors": ["zfit/core/space.py:Space.less_equal", "zfit/core/space.py:less_equal_limits"]}
{"id": "C72", "title": "Polynomial PDFs are linear combinations of the classical polynomials", "statement": "The unnormalised density of Legendre, Chebyshev, Chebyshev2, Laguerre and Hermite of any degree is sum_k c_k P_k(y) where y is x mapped linearly so that the lower edge of the space goes to -1 and the upper edge to 1 (or x itself without apply_scaling) and P_k is the classical polynomial of degree k.", "quantifier": "every degree, every coefficients, every space, every x", "why_tests_cant": "the degree is unbounded and the recurrences are evaluated numerically", "anchors": ["zfit/models/polynomials.py:rescale_minus_plus_one", "zfit/models/polynomials.py:create_poly", "zfit/models/polynomials.py:do_recurrence", "zfit/models/polynomials.py:legendre_shape", "zfit/models/polynomials.py:chebyshev_shape", "zfit/models/polynomials.py:chebyshev2_shape", "zfit/models/polynomials.py:laguerre_shape", "zfit/models/polynomials.py:hermite_shape"]}
{"id": "C73", "title": "The analytic integrals of the Crystal Ball family and of GaussExpTail are the integrals of the shapes", "statement": "For CrystalBall, DoubleCB, GeneralizedCB, GaussExpTail and GeneralizedGaussExpTail, the registered analytic integral over any interval equals the integral of the unnormalised density over that interval, wherever the transition points and the mean lie relative to the interval; and the density of CrystalBall is the documented piecewise formula.", "quantifier": "every mean, positive width, non-zero transition point of either sign, positive tail exponent, and interval", "why_tests_cant": "the formula has a dozen branches selected by real comparisons of the parameters with the limits; numerical comparison on samples only sees a few of them and up to a tolerance", "anchors": ["zfit/models/physics.py:crystalball_func", "zfit/models/physics.py:crystalball_integral_func", "zfit/models/physics.py:double_crystalball_func", "zfit/models/physics.py:double_crystalball_mu_integral_func", "zfit/models/physics.py:generalized_crystalball_func", "zfit/models/physics.py:generalized_crystalball_mu_integral_func", "zfit/models/physics.py:gaussexptail_func", "zfit/models/physics.py:gaussexptail_integral_func", "zfit/models/physics.py:generalized_gaussexptail_func", "zfit/models/physics.py:generalized_gaussexptail_integral_func"]}
{"id": "C74", "title": "The Crystal Ball family and GaussExpTail are smooth positive peaks at the mean", "statement": "The densities of CrystalBall, DoubleCB, GeneralizedCB, GaussExpTail and GeneralizedGaussExpTail are continuous and differentiable everywhere, in particular where core and tail meet and where the two sides meet; they are positive, reach their maximum 1 (unnormalised) at the mean, rise before it and fall after it.", "quantifier": "every mean, positive width(s), non-zero transition point(s), positive tail exponent(s), every x", "why_tests_cant": "smoothness and monotonicity are statements about all points of the real line", "anchors": ["zfit/models/physics.py:crystalball_func", "zfit/models/physics.py:double_crystalball_func", "zfit/models/physics.py:generalized_crystalball_func", "zfit/models/physics.py:gaussexptail_func", "zfit/models/physics.py:generalized_gaussexptail_func"]}
{"id": "C75", "title": "A root reported as found is a root inside the bracket", "statement": "For a bracket over which the function changes sign, the root search returns a point of the bracket together with the function value at that point, reports convergence exactly when that value is within the function tolerance, uses no more than the allowed iterations, and when it stops early without convergence a true zero of a continuous function is closer than the root tolerance. Without a sign change it must not report convergence.", "quantifier": "every function, every bracket, every non-negative tolerance, every iteration bound", "why_tests_cant": "the search is an adaptive iteration whose path depends on every function value; a test sees one function", "anchors": ["zfit/util/root_search.py:brentq", "zfit/util/root_search.py:_brent", "zfit/util/root_search.py:_brent_loop_body", "zfit/util/root_search.py:_secant_step", "zfit/util/root_search.py:_quadratic_interpolation_step"]}
{"id": "C76", "title": "The Improved Sheather-Jones bandwidth solves the fixed-point equation of the method", "statement": "The t whose square root (times the data range) becomes the bandwidth satisfies t = t_opt(s) for an s >= 0 with |s - t_opt(s)| <= 2e-7; in particular the bandwidth is not zero unless t_opt is; if the first bracket does not contain the solution, the bracket is enlarged.", "quantifier": "every data-dependent function t_opt, every number of distinct points", "why_tests_cant": "which bracket is needed depends on the data; tests use a few large samples whose first bracket already contains the solution", "anchors": ["zfit/util/improved_sheather_jones.py:_find_root", "zfit/util/improved_sheather_jones.py:_fixed_point", "zfit/util/improved_sheather_jones.py:calculate_bandwidth", "zfit/models/kde.py:KDE1DimISJ"]}
{"id": "C77", "title": "Levenberg-Marquardt never makes the loss worse", "statement": "Along the points LevenbergMarquardt visits the loss never increases. The returned fmin is the loss at the returned parameters, it is not above the loss at the start and it is a number; no more than the allowed iterations are made; a result is returned or the maximum-iteration exception raised; the result is valid exactly if the reported criterion is below the tolerance. Where the Hessian is positive semidefinite every tried step is the unique solution of its equation and goes downhill.", "quantifier": "every loss (with NaN regions), number of parameters, start point, damping history, tolerance and iteration bound", "why_tests_cant": "the sequence of dampings depends on all loss values; a counterexample needs a loss whose steps fail in a particular order", "anchors": ["zfit/minimizers/minimizer_lm.py:LevenbergMarquardt._minimize", "zfit/minimizers/minimizer_lm.py:LevenbergMarquardt._mode0_step", "zfit/minimizers/minimizer_lm.py:LevenbergMarquardt._damped_hess0", "zfit/minimizers/evaluation.py:LossEval", "zfit/minimizers/strategy.py:PushbackStrategy.minimize_nan"]}
{"id": "C78", "title": "A valid Levenberg-Marquardt result is close to a minimum", "statement": "If the result of LevenbergMarquardt is valid, the estimated distance to the minimum at the returned parameters, computed with gradient and Hessian at these parameters, is below tol times the errordef of the loss.", "quantifier": "every loss, start point and tolerance", "why_tests_cant": "well-behaved test losses are minimised with small damping, where the reported estimate agrees with the true one", "anchors": ["zfit/minimizers/minimizer_lm.py:LevenbergMarquardt._minimize", "zfit/minimizers/minimizer_lm.py:LevenbergMarquardt._mode0_step", "zfit/minimizers/minimizer_lm.py:LevenbergMarquardt._damped_hess0", "zfit/minimizers/termination.py:EDM"]}
{"id": "C79", "title": "A Gaussian constraint is the normal negative log-likelihood of the parameters and the observations", "statement": "The value of GaussianConstraint is the negative logarithm of the multivariate normal density with the given covariance, symmetric in parameters and observations, smallest exactly where the parameters equal the observations; sigma=s, cov=s² and cov=diag(s²) give the same constraint, which is the sum of one normal term per parameter; contradictory inputs (sigma with cov or uncertainty, a matrix as sigma, other lengths, no uncertainty at all) are rejected on creation; sample returns for each parameter its own column.", "quantifier": "every number of parameters, every observation, every symmetric positive definite covariance, every parameter value", "why_tests_cant": "an identity of real functions in any dimension; tests compare a few numbers up to a tolerance", "anchors": ["zfit/core/constraint.py:GaussianConstraint", "zfit/core/constraint.py:_preprocess_gaussian_constr_sigma_var", "zfit/core/constraint.py:TFProbabilityConstraint", "zfit/core/constraint.py:ProbabilityConstraint.sample"]}
{"id": "C80", "title": "Poisson and log-normal constraints are the documented likelihoods of the observation given the parameters", "statement": "The value of PoissonConstraint is the negative logarithm of Poisson(observation; params), the probability of the observations for the parameters as means, and it is smallest where the parameters equal the observations; the value of LogNormalConstraint with an observed value of the parameter is smallest at that value up to the width of the uncertainty.", "quantifier": "every observation, uncertainty and parameter value", "why_tests_cant": "tests compare the constraint with the same library call it is made of; that the roles of parameter and observation are exchanged is not visible there", "anchors": ["zfit/core/constraint.py:PoissonConstraint", "zfit/core/constraint.py:LogNormalConstraint", "zfit/core/constraint.py:TFProbabilityConstraint"]}
{"id": "C81", "title": "Dumping with zfit.dill is verified, bounded and harmless to the rest of the file", "statement": "With max_retries=r, loads and load attempt at most r+1 times, clear the graph cache after each failure, return the object of the first successful attempt and raise ZfitDillLoadError if all fail; every attempt of load reads from the position where the file was handed in. Bytes returned by dumps (with verification, the default) are those of its last dump and have been loaded successfully; dump leaves the file before the starting position unchanged, positions it behind the last dump and has loaded from the start; both call the underlying dump a bounded number of times; a verified dump is never thrown away; nothing but the dump is left behind the start; negative max_retries is rejected before anything happens.", "quantifier": "every sequence of successes and failures of the underlying dill calls, every file content and position, every number of retries", "why_tests_cant": "failures depend on garbage collection and graph state at each attempt: tests exercise one or two schedules of the retries", "anchors": ["zfit/dill.py:dumps", "zfit/dill.py:dump", "zfit/dill.py:loads", "zfit/dill.py:load"]}
{"id": "C82", "title": "Padding of a KDE mirrors each event at the border with its own weight and bandwidth", "statement": "padding=f appends to the sample the mirror image at each limit of the events closer to it than f times the width of the space, each with its weight and bandwidth, and keeps all other events in order; True means 0.1, False and None nothing, a dict chooses the sides, other keys raise ValueError; inside the limits the sample is unchanged and near each limit it is symmetric about it; weights given both with the data and explicitly are rejected.", "quantifier": "every sample, weights, bandwidths, limits and padding fraction, for events inside the limits; refuted outside and on the limits", "why_tests_cant": "tests look at one plotted density; that weights stay attached to their events must hold for every sample", "anchors": ["zfit/models/kde.py:padreflect_data_weights_1dim", "zfit/models/kde.py:KDEHelper._convert_init_data_weights_size"]}
{"id": "C83", "title": "The exact KDE is the weighted mean of normal kernels and a probability density", "statement": "KDE1DimExact with a numerical bandwidth (one for all or one per event) is at every point the mean of the normal densities at the events, weighted with their weights; it is positive and has integral one, does not depend on the order of the events or on a common factor of the weights; without weights it is that of weights one, and an event of integer weight k counts as k events.", "quantifier": "every non-empty sample, non-negative weights with a positive sum, positive bandwidths, every point; negative weights are refuted", "why_tests_cant": "an identity and an integral of real functions for every sample; tests compare a few points up to a tolerance", "anchors": ["zfit/models/kde.py:KDE1DimExact", "zfit/models/kde.py:calc_kernel_probs", "zfit/models/kde.py:check_bw_grid_shapes"]}
{"id": "C84", "title": "Linear binning onto the KDE grid preserves the total weight and the mean", "statement": "With linear binning every event gives its weight to the two neighbouring grid points in proportion to its closeness: any function linear between grid points has the same weighted mean over the grid as over the sample; in particular the weights on the grid sum to one and the mean is that of the sample; events without weights count one each; the grid covers the sample. Simple binning gives each event to one grid point with its weight.", "quantifier": "every sample inside the grid, every weights with non-zero sum, every grid with at least two points", "why_tests_cant": "an identity for every function and sample; tests check one sample against another library", "anchors": ["zfit/util/binning.py:bin_1d", "zfit/util/binning.py:_bin_1d_weighted", "zfit/util/binning.py:generate_1d_grid"]}
{"id": "C85", "title": "The rule-of-thumb bandwidths scale with the sample and follow the documented formula", "statement": "The bandwidths silverman and scott are the documented factor times min(sigma, IQR/1.34) times n^(-1/5), with events of weight w counting as w events; stretching and shifting the sample stretches the bandwidth; it is never negative, and zero only for constant samples; the order of the events and a common factor of the weights do not matter; weights of one are as no weights.", "quantifier": "every sample and positive weights", "why_tests_cant": "identities for every sample; tests only check that the estimates look similar", "anchors": ["zfit/models/kde.py:bandwidth_rule_of_thumb", "zfit/models/kde.py:bandwidth_silverman", "zfit/models/kde.py:bandwidth_scott", "zfit/models/kde.py:min_std_or_iqr", "zfit/z/math.py:weighted_quantile"]}
{"id": "C86", "title": "Adaptive bandwidths are proportional to the inverse root of the local density and scale with the sample", "statement": "The adaptive bandwidths (geom, std, zfit) are at every event one constant divided by the square root of the density estimate there; stretching and shifting the sample stretches all of them in the same way; a common factor of the weights counts as that many more events for geom and std and has no influence on zfit.", "quantifier": "every sample, weights and positive density estimate", "why_tests_cant": "identities of real functions for every sample; tests check rough agreement of densities", "anchors": ["zfit/models/kde.py:bandwidth_adaptive_geomV1", "zfit/models/kde.py:bandwidth_adaptive_zfitV1", "zfit/models/kde.py:bandwidth_adaptive_stdV1", "zfit/z/math.py:reduce_geometric_mean"]}
{"id": "C87", "title": "The density of a wrapped distribution is its documented shape, normalised over the norm range", "statement": "For Gauss, Uniform, TruncatedGauss, Cauchy, LogNormal, ChiSquared, Gamma, StudentT, QGauss, BifurGauss, JohnsonSU and GeneralizedGauss, pdf(x) over a finite norm range is the documented shape at x divided by the integral of the documented shape over the range; QGauss rejects values of q outside its documented domain; an infinite norm range is refused rather than integrated wrongly.", "quantifier": "every parameter value in the documented domain, norm range and event", "why_tests_cant": "an identity of real functions in up to five arguments; tests compare a few points, often with the same library", "anchors": ["zfit/models/dist_tfp.py:WrapDistribution", "zfit/models/dist_tfp.py:Gauss", "zfit/models/dist_tfp.py:TruncatedGauss", "zfit/models/dist_tfp.py:QGauss", "zfit/models/dist_tfp.py:BifurGauss", "zfit/models/dist_tfp.py:StudentT", "zfit/models/dist_tfp.py:GeneralizedGauss", "zfit/models/dist_tfp.py:JohnsonSU"]}
{"id": "C88", "title": "Analytic samples lie inside the limits and follow the distribution restricted to them", "statement": "sample(n, limits) of a wrapped distribution with a quantile function gives n events; each is above the lower and not above the upper limit; their distribution function is (F(t) - F(lower)) / (F(upper) - F(lower)). Distributions without a quantile function fall back to accept-reject.", "quantifier": "every distribution with a cumulative distribution and its quantile, limits with positive probability, and random number in (0, 1)", "why_tests_cant": "a statement about a probability measure and every random number; tests compare histograms of one seed", "anchors": ["zfit/models/dist_tfp.py:tfd_analytic_sample", "zfit/models/dist_tfp.py:WrapDistribution", "zfit/core/basemodel.py:BaseModel._analytic_sample"]}
{"id": "C89", "title": "The probabilities of a Poisson PDF add up to one over its norm range", "statement": "The normalised values of a Poisson PDF at the integers in its norm range are in the ratios of lamb^k/k! and add up to one.", "quantifier": "every rate and norm range that contains an integer", "why_tests_cant": "must hold for every rate and range; tests use a range where the boundary has no weight", "anchors": ["zfit/models/dist_tfp.py:Poisson", "zfit/models/dist_tfp.py:WrapDistribution._analytic_integrate"]}
{"id": "C90", "title": "Morphing between templates reproduces every template and keeps the totals", "statement": "A SplineMorphingPDF made from two or more extended templates at different alpha gives a histogram for every alpha; at the alpha of a template it has the counts, relative counts and yield of that template; the relative counts add up to one and the automatically created yield is the total of the counts for every alpha, and counts are the yield times the relative counts; templates that change linearly with alpha are continued linearly; two templates are interpolated linearly; the order of the templates does not matter; morphing templates with non-negative counts gives non-negative counts; a single template is refused with an error; a list must have length three and means alpha -1, 0, 1; the dictionary passed by the user is not changed.", "quantifier": "every set of templates with any number of bins and any alpha", "why_tests_cant": "the interpolation solves a linear system whose size is the number of templates; tests morph one set of templates at a few alpha", "anchors": ["zfit/models/morphing.py:SplineMorphingPDF", "zfit/models/morphing.py:spline_interpolator", "zfit/z/interpolate_spline.py:interpolate_spline", "zfit/z/interpolate_spline.py:_solve_interpolation", "zfit/z/interpolate_spline.py:_phi"]}
{"id": "C91", "title": "A splined PDF interpolates the binned density", "statement": "A SplinePDF of a binned PDF with two or more bins has a density everywhere, equal to the binned density at every bin centre; a binned density linear in the bin centre is reproduced everywhere; the extended density is the yield times the density; the density is not negative; it is normalised over the limits; all this with every interpolation order accepted by the constructor.", "quantifier": "every binning, binned density, yield, order and event", "why_tests_cant": "a system of linear equations of arbitrary size whose solvability depends on the kernel; tests compare one histogram at a few points", "anchors": ["zfit/models/interpolation.py:SplinePDF", "zfit/z/interpolate_spline.py:interpolate_spline", "zfit/z/interpolate_spline.py:_solve_interpolation", "zfit/z/interpolate_spline.py:_apply_interpolation", "zfit/z/interpolate_spline.py:_phi"]}
{"id": "C92", "title": "Numerical derivatives leave the parameters unchanged and do not depend on limits that are not crossed", "statement": "numerical_gradient, numerical_hessian, numerical_value_gradient and numerical_value_gradient_hessian return what the differentiation method gives for func as a function of the given parameters alone; afterwards every parameter has its previous value, also if func raises; parameters that are not differentiated are never touched; the derivative of a function that is at most quadratic in a parameter is exact wherever the parameter is within its limits, including at a limit; the deprecated names give the same result; a gradient may be given instead of func where the check says so.", "quantifier": "every function (raising or not), list of parameters, sequence of evaluations made by the differentiation library, steps and parameter values", "why_tests_cant": "depends on every sequence of evaluation points chosen by the library and on where func raises; tests differentiate one smooth function away from limits", "anchors": ["zfit/z/math.py:numerical_gradient", "zfit/z/math.py:numerical_hessian", "zfit/z/math.py:numerical_value_gradient", "zfit/z/math.py:numerical_value_gradients", "zfit/z/math.py:numerical_value_gradient_hessian", "zfit/core/parameter.py:assign_values"]}
{"id": "C93", "title": "The derivatives of a loss agree with each other and use the requested method", "statement": "gradient, value_gradient, hessian and value_gradient_hessian give the same value, gradient and Hessian whenever the overridden methods of a subclass and the numerical and automatic derivatives agree; numgrad=True/False selects the method in all four; without the argument the options numgrad (gradient) and numhess (Hessian) of the loss select it; a method overridden in a subclass is used by all of them; SimpleLoss uses the functions or methods given for gradient and hessian, rejects other strings, and create_new keeps them.", "quantifier": "every combination of overridden methods, options and arguments", "why_tests_cant": "sixteen sets of overridden methods times options and arguments; tests cover the default", "anchors": ["zfit/core/loss.py:BaseLoss.gradient", "zfit/core/loss.py:BaseLoss.value_gradient", "zfit/core/loss.py:BaseLoss.hessian", "zfit/core/loss.py:BaseLoss.value_gradient_hessian", "zfit/core/loss.py:SimpleLoss"]}
{"id": "C94", "title": "The convolution pdf is the function smeared by the kernel", "statement": "FFTConvPDFV1(func, kernel, n) with linear interpolation: at the points of its grid the unnormalised pdf at x is the sum, over the points t of the kernel, of kernel(t) times func(x - t); in between it is interpolated linearly; every value of func that is needed for an x within the limits of func is used; the points weighted with the pdf have the product of the totals, the sum of the means and the sum of the variances of func and kernel; the pdf is linear in func and in kernel, not negative if both are not, and moves with func; it is accepted exactly if interpolation is known, both have one range and the kernel is not wider than func.", "quantifier": "every func and kernel, limits, number of points and position", "why_tests_cant": "depends on every combination of limits and number of points through rounding of the number of bins; tests compare with a tolerance of several percent for one kernel", "anchors": ["zfit/models/convolution.py:FFTConvPDFV1.__init__", "zfit/models/convolution.py:FFTConvPDFV1._unnormalized_pdf"]}
{"id": "C95", "title": "Sampling from a convolution follows the distribution of the sum of independent events", "statement": "sample(n, limits) of a FFTConvPDFV1 returns events in the limits, each the sum of an event of func and an event of the kernel; an event is distributed as the sum of independent events of func and kernel, given that it lies in the limits, for every kernel; sampling goes on until n events are found.", "quantifier": "every distribution of func and kernel, limits, and outcome of the random numbers", "why_tests_cant": "a statement about probability distributions and every outcome of the random numbers; tests sample with one symmetric kernel and a fixed seed", "anchors": ["zfit/models/convolution.py:FFTConvPDFV1._sample", "zfit/models/convolution.py:AddingSampleAndWeights", "zfit/core/data.py:sum_samples"]}
{"id": "C96", "title": "Scipy, NLopt and Ipyopt: a result is valid exactly if the criterion is met within the budget", "statement": "The result of a Scipy, NLopt or Ipyopt minimiser comes from one of at most 20 runs of the library; its valid flag (limits of the parameters apart) is set exactly if the criterion value it reports is smaller than tol times errordef, the number of evaluations does not exceed maxiter and the wrapper or the library did not give up (Scipy: stuck; NLopt: a status other than success; Ipyopt: budget exhausted during the run). At most five random displacements are made.", "quantifier": "every behaviour of the library, criterion value (also NaN) after each run, number of evaluations and random number", "why_tests_cant": "depends on every sequence of outcomes of the wrapped library, of the criterion and of the random numbers; tests run a few fits that converge", "anchors": ["zfit/minimizers/minimizers_scipy.py:ScipyBaseMinimizer._minimize", "zfit/minimizers/minimizer_nlopt.py:NLoptBaseMinimizerV1._minimize", "zfit/minimizers/ipopt.py:Ipyopt._minimize", "zfit/minimizers/fitresult.py:FitResult.from_scipy", "zfit/minimizers/fitresult.py:FitResult.from_nlopt", "zfit/minimizers/fitresult.py:FitResult.from_ipopt", "zfit/minimizers/termination.py:ConvergenceCriterion"]}
{"id": "C97", "title": "Minuit: a valid result meets the criterion errordef * tol and the budget", "statement": "A valid result of Minuit comes from a run that iminuit calls valid, its criterion value is smaller than errordef * tol as documented, and the number of evaluations of the whole minimisation does not exceed maxiter.", "quantifier": "every behaviour of iminuit, tolerance, errordef and criterion", "why_tests_cant": "depends on every sequence of outcomes of the wrapped library, of the criterion and of the random numbers; tests run a few fits that converge", "anchors": ["zfit/minimizers/minimizer_minuit.py:Minuit._minimize", "zfit/minimizers/minimizer_minuit.py:Minuit._make_minuit", "zfit/minimizers/fitresult.py:FitResult.from_minuit"]}
{"id": "C98", "title": "Reported point, value and criterion belong together", "statement": "For a library that returns the loss at the point it returns, the value (fminopt) and the criterion (edm) of every result of a wrapped minimiser are those of the reported parameter values.", "quantifier": "every behaviour of the library, criterion and random number", "why_tests_cant": "depends on every sequence of outcomes of the wrapped library, of the criterion and of the random numbers; tests run a few fits that converge", "anchors": ["zfit/minimizers/minimizers_scipy.py:ScipyBaseMinimizer._minimize", "zfit/minimizers/minimizer_nlopt.py:NLoptBaseMinimizerV1._minimize", "zfit/minimizers/ipopt.py:Ipyopt._minimize"]}
{"id": "C99", "title": "The reported point is inside the limits and not worse than the start", "statement": "If the library respects the limits of the parameters and never goes uphill, the values reported by a wrapped minimiser are inside the limits and the loss there is not above the loss at the start.", "quantifier": "every such library, limits, loss and random number", "why_tests_cant": "depends on every sequence of outcomes of the wrapped library, of the criterion and of the random numbers; tests run a few fits that converge", "anchors": ["zfit/minimizers/minimizers_scipy.py:ScipyBaseMinimizer._minimize", "zfit/minimizers/minimizer_nlopt.py:NLoptBaseMinimizerV1._minimize", "zfit/minimizers/ipopt.py:Ipyopt._minimize"]}
{"id": "C100", "title": "After a failed run the fit goes on from elsewhere, and what was found is not lost", "statement": "If a run of the library fails, the next one starts from a random point near the start (NLopt); if the budget is exhausted after a run that returned a point, the minimiser returns a result with that point, marked invalid.", "quantifier": "every behaviour of the library and random number", "why_tests_cant": "depends on every sequence of outcomes of the wrapped library, of the criterion and of the random numbers; tests run a few fits that converge", "anchors": ["zfit/minimizers/minimizers_scipy.py:ScipyBaseMinimizer._minimize", "zfit/minimizers/minimizer_nlopt.py:NLoptBaseMinimizerV1._minimize", "zfit/minimizers/ipopt.py:Ipyopt._minimize"]}
{"id": "C101", "title": "The algorithm and the derivatives that were asked for are used", "statement": "Each NLopt minimiser runs its own algorithm; a Scipy minimiser accepts each documented choice of gradient and hessian (no choice or False: zfit; True: the library; \"2-point\"/\"3-point\"; a quasi-Newton strategy) and hands it to the library, refusing numerical gradients only without a quasi-Newton hessian.", "quantifier": "every minimiser, choice of gradient and hessian and set of choices of the class", "why_tests_cant": "a statement about all combinations; tests use the defaults", "anchors": ["zfit/minimizers/minimizer_nlopt.py:NLoptBaseMinimizerV1._minimize", "zfit/minimizers/minimizers_scipy.py:ScipyBaseMinimizer.__init__"]}
{"id": "C102", "title": "Making a minimiser leaves the options of the user alone", "statement": "The constructors of Ipyopt and Minuit accept every dictionary of options without the entries that have their own argument, refuse unknown ones, and do not change it, so that it can be used for a second minimiser.", "quantifier": "every dictionary of options and arguments", "why_tests_cant": "depends on every dictionary and on what was done with it before; tests make each minimiser once", "anchors": ["zfit/minimizers/ipopt.py:Ipyopt.__init__", "zfit/minimizers/minimizer_minuit.py:Minuit.__init__", "zfit/minimizers/minimizer_minuit.py:Minuit._make_minuit"]}
{"id": "C103", "title": "The estimated distance to the minimum is the distance for a parabola", "statement": "For a loss that is a parabola with positive definite curvature, the criterion EDM is the loss minus its minimum, whether gradient and inverse hessian are those of the loss or of the minimiser; the fit has converged exactly if this is smaller than tol * errordef; the criterion is never negative, and it is 999999 for a singular hessian or if the estimate is negative.", "quantifier": "every number of parameters, curvature, minimum, point, tolerance and errordef", "why_tests_cant": "quantifies over all matrices and vectors", "anchors": ["zfit/minimizers/termination.py:EDM", "zfit/minimizers/termination.py:calculate_edm", "zfit/minimizers/termination.py:calculate_edm_hesse", "zfit/minimizers/termination.py:ConvergenceCriterion"]}
{"id": "C104", "title": "A point that meets the criterion is near the minimum", "statement": "If the criterion EDM at a point is smaller than tol * errordef, the loss at the point is less than tol * errordef above the loss at any other point, for every loss that is quadratic; the criterion is g^T H^-1 g as documented.", "quantifier": "every quadratic loss and point", "why_tests_cant": "quantifies over all matrices and vectors", "anchors": ["zfit/minimizers/termination.py:EDM", "zfit/minimizers/termination.py:calculate_edm_hesse"]}
{"id": "C105", "title": "Binning a PDF integrates it over the bins", "statement": "For every unbinned PDF, binning (any number of axes, any edges) and norm, the relative counts of the binned PDF are the integrals of the PDF over the boxes of the bins divided by its integral over the norm (undivided for norm=False), the density is that divided by the area of the bin, and, the integral being additive, all bins add up to the integral over the range of the bins divided by that over the norm: to one if the norm is that range.", "quantifier": "every PDF with an additive integral, binning, norm", "why_tests_cant": "a statement about every density, every binning in any number of dimensions and every norm; tests compare a Gaussian on a few grids", "anchors": ["zfit/models/tobinned.py:BinnedFromUnbinnedPDF._rel_counts", "zfit/models/tobinned.py:BinnedFromUnbinnedPDF.__init__"]}
{"id": "C106", "title": "The counts of a binned PDF add up to its yield", "statement": "For every unbinned PDF and binning, with the yield of the PDF or one given when binning, the counts normalised over the space are the yield reported by the binned PDF times the part of the PDF in each bin and add up to the yield; a given yield replaces that of the PDF.", "quantifier": "every PDF with an additive integral, binning, yields", "why_tests_cant": "a statement about every density, every binning in any number of dimensions and every norm; tests compare a Gaussian on a few grids", "anchors": ["zfit/models/tobinned.py:BinnedFromUnbinnedPDF._counts", "zfit/models/tobinned.py:BinnedFromUnbinnedPDF.__init__"]}
{"id": "C107", "title": "Counts are yield times relative counts for every norm", "statement": "For every norm (none, the space, any other range) the counts of a binned PDF are its yield times its relative counts for the same norm.", "quantifier": "every PDF with an additive integral, binning and norm", "why_tests_cant": "a statement about every density, every binning in any number of dimensions and every norm; tests compare a Gaussian on a few grids", "anchors": ["zfit/models/tobinned.py:BinnedFromUnbinnedPDF._counts", "zfit/models/tobinned.py:BinnedFromUnbinnedPDF._rel_counts", "zfit/core/binnedpdf.py:BaseBinnedPDF._auto_counts"]}
{"id": "C108", "title": "A binned PDF made unbinned is a step function", "statement": "The density of an unbinned PDF made from a binned one is, at every point, the density of the binned PDF in the bin of the point (by name of the observable), zero outside of the bins, and its integral over any box that has a point in common with the bins is the integral of this step function.", "quantifier": "every binned PDF, point and box in any number of dimensions", "why_tests_cant": "a statement about every point and box; tests evaluate a few points", "anchors": ["zfit/models/unbinnedpdf.py:UnbinnedFromBinnedPDF._pdf", "zfit/models/unbinnedpdf.py:UnbinnedFromBinnedPDF._integrate"]}
{"id": "C109", "title": "Making a PDF unbinned and binned again gives it back", "statement": "Making a binned PDF unbinned and binning that with the same edges gives a PDF with the same relative counts (without norm; with a norm divided by the integral over the norm).", "quantifier": "every binned PDF, any number of axes", "why_tests_cant": "a round trip over all binned PDFs", "anchors": ["zfit/models/unbinnedpdf.py:UnbinnedFromBinnedPDF", "zfit/models/tobinned.py:BinnedFromUnbinnedPDF._rel_counts"]}
{"id": "C110", "title": "An unbinned PDF made from a binned one is normalised over its norm", "statement": "For every space and norm it was made with, and every norm asked for, the integral over the norm is one.", "quantifier": "every binned PDF, space and norm", "why_tests_cant": "a statement about all norms; tests use the default", "anchors": ["zfit/models/unbinnedpdf.py:UnbinnedFromBinnedPDF.__init__", "zfit/models/unbinnedpdf.py:UnbinnedFromBinnedPDF._pdf", "zfit/models/unbinnedpdf.py:UnbinnedFromBinnedPDF._integrate"]}
{"id": "C111", "title": "The yield of an unbinned PDF made from a binned one", "statement": "Both ext_pdf and ext_integrate of an unbinned PDF made from a binned one are the yield it reports (the one given, otherwise that of the binned PDF) times pdf and integrate.", "quantifier": "every binned PDF and yield", "why_tests_cant": "a statement about all PDFs and yields", "anchors": ["zfit/models/unbinnedpdf.py:UnbinnedFromBinnedPDF._ext_pdf", "zfit/models/unbinnedpdf.py:UnbinnedFromBinnedPDF._ext_integrate", "zfit/core/basepdf.py:BasePDF.ext_integrate"]}
{"id": "C112", "title": "Sampling from an unbinned PDF made from a binned one", "statement": "A sample of n events in given limits has n events, all inside the limits, each bin having as many as were drawn for it, in no particular order.", "quantifier": "every binned PDF, binning, n, limits and random numbers", "why_tests_cant": "depends on every outcome of the random generator", "anchors": ["zfit/models/unbinnedpdf.py:UnbinnedFromBinnedPDF._sample", "zfit/core/basemodel.py:BaseModel.sample"]}
{"id": "C113", "title": "A composed parameter is its function of the given parameters", "statement": "The value of a composed parameter is at all times its function applied to the current values of the parameters it was given: a list by position in its order, a mapping by name, several parameters for a function of one argument as one tuple or dict, nothing for a function without arguments; if it cannot be decided how to call the function, creation raises ValueError; unpack_params decides if given.", "quantifier": "every function signature (without *args), every list or mapping of parameters and all values", "why_tests_cant": "a statement about every function signature, list or mapping of parameters and values; tests build a handful of composed parameters", "anchors": ["zfit/core/parameter.py:ComposedParameter.__init__", "zfit/core/parameter.py:BaseComposedParameter"]}
{"id": "C114", "title": "A composed parameter that could be created can be evaluated", "statement": "If a composed parameter is created without error from a list or mapping of parameters, then its function accepts the call that is chosen for it; a function that cannot be called with the parameters is refused at creation.", "quantifier": "every function signature, every list or mapping of parameters", "why_tests_cant": "a statement about every function signature, list or mapping of parameters and values; tests build a handful of composed parameters", "anchors": ["zfit/core/parameter.py:ComposedParameter.__init__"]}
{"id": "C115", "title": "A composed parameter reports what it depends on", "statement": "get_params of a composed or complex parameter, and of all parameters derived from it, contains every independent parameter its value depends on: changing any other parameter does not change the value, and changing a reported one is passed on.", "quantifier": "every composed parameter over every graph of parameters and all values", "why_tests_cant": "a statement about every function signature, list or mapping of parameters and values; tests build a handful of composed parameters", "anchors": ["zfit/core/parameter.py:ComposedParameter.__init__", "zfit/core/parameter.py:ComplexParameter.conj", "zfit/core/parameter.py:BaseComposedParameter"]}
{"id": "C116", "title": "The values of complex parameters", "statement": "A complex parameter made from cartesian or polar parts has the complex value with these parts at all values of them; conj is its complex conjugate, real, imag, mod and arg the parts of its value, and mod and arg of a complex number made from polar parts are these parts (modulus non-negative, argument in (-pi, pi]).", "quantifier": "all values of both parts, all complex parameters", "why_tests_cant": "an identity over all complex numbers", "anchors": ["zfit/core/parameter.py:ComplexParameter.from_cartesian", "zfit/core/parameter.py:ComplexParameter.from_polar", "zfit/core/parameter.py:ComplexParameter.conj", "zfit/core/parameter.py:ComplexParameter.mod", "zfit/core/parameter.py:ComplexParameter.arg"]}
{"id": "C117", "title": "A complex parameter that is not floating is constant", "statement": "A complex parameter created with floating=False has no floating parameter among its parameters; with floating=True it has those of both parts.", "quantifier": "numbers and parameters as parts", "why_tests_cant": "a statement about everything the parts can be", "anchors": ["zfit/core/parameter.py:ComplexParameter.from_cartesian", "zfit/core/parameter.py:ComplexParameter.from_polar"]}
{"id": "C118", "title": "A pickled parameter comes back the same", "statement": "Pickling and unpickling a parameter gives a parameter with the same name, value, limits, step size, floating and label, that behaves the same (in fits as well).", "quantifier": "every parameter with any limits and step size", "why_tests_cant": "a round trip over all parameters", "anchors": ["zfit/core/parameter.py:Parameter.__reduce__", "zfit/core/parameter.py:Parameter.__init__", "zfit/minimizers/minimizer_minuit.py:Minuit._minimize", "zfit/minimizers/minimizer_nlopt.py:NLoptBaseMinimizerV1._minimize"]}
{"id": "C119", "title": "Randomising a parameter", "statement": "randomize sets the parameter to a value drawn between minval and maxval (the limits by default) that is within the limits; it raises RuntimeError and changes nothing if there is no range to draw from, as documented.", "quantifier": "every parameter, range and random number", "why_tests_cant": "depends on every outcome of the random generator", "anchors": ["zfit/core/parameter.py:Parameter.randomize"]}
{"id": "C120", "title": "What numbers and parameters are converted to", "statement": "Conversion to parameters returns parameters as they are, makes a constant of this value of a number (prefer_constant) or a floating parameter with this value, limits and step size, and a complex parameter of a complex number; names made up for different conversions are different; lists are converted entry by entry with the entries of the columns, and lists of different lengths or of numbers and parameters mixed are refused.", "quantifier": "all values, lists of columns and sequences of conversions", "why_tests_cant": "a statement about all sequences of conversions", "anchors": ["zfit/core/parameter.py:convert_to_parameter", "zfit/core/parameter.py:convert_to_parameters", "zfit/core/parameter.py:get_auto_number"]}
{"id": "C121", "title": "Limits given to a conversion are respected", "statement": "A parameter that is returned from a conversion of a value with limits has these limits and a value inside of them, or the conversion raises.", "quantifier": "all values and limits", "why_tests_cant": "a statement about every function signature, list or mapping of parameters and values; tests build a handful of composed parameters", "anchors": ["zfit/core/parameter.py:convert_to_parameter", "zfit/core/parameter.py:convert_to_parameters"]}
{"id": "C122", "title": "Parameters without automatic gradient are refused", "statement": "A model that is created with autograd_params supports the automatic gradient in these parameters only: get_params(autograd=True) of every model and loss built from it leaves out every parameter that some part of it does not support and keeps all others, and an automatic gradient of a loss is refused for exactly the parameters left out; names that are not parameters of the model are refused at creation.", "quantifier": "every tree of models, every declaration and combination of flags, every loss with constraints", "why_tests_cant": "a statement about all trees of models", "anchors": ["zfit/core/baseobject.py:BaseParametrized.__init__", "zfit/core/baseobject.py:BaseParametrized.get_params", "zfit/core/basepdf.py:BasePDF._get_params", "zfit/core/binnedpdf.py:BaseBinnedPDFV1._get_params", "zfit/models/basefunctor.py:FunctorMixin._get_params", "zfit/core/loss.py:BaseLoss._get_params", "zfit/core/loss.py:BaseLoss._check_assert_autograd", "zfit/models/cache.py:CachedPDF"]}
{"id": "C123", "title": "Evaluation at given values of the parameters", "statement": "A method of a model or a loss that is called with values for parameters (a mapping from names or parameters; for losses also an array for all parameters in order) gives the result with these parameters at these values and all others unchanged, and afterwards, also if the evaluation raises, every parameter has the value it had before. Unknown names and arrays of another length raise ValueError, other types TypeError, and nothing changes. For a loss, the full value does not depend on what was evaluated before, and calling it with an array is the full value with the floating parameters at the array.", "quantifier": "all models and losses, values allowed by the limits, histories of evaluations", "why_tests_cant": "a statement about all mappings of values, stores of parameters and histories of evaluations", "anchors": ["zfit/core/baseobject.py:convert_param_values", "zfit/core/baseobject.py:BaseParametrized._check_set_input_params", "zfit/core/baseobject.py:BaseParametrized._check_convert_input_paramvalues", "zfit/core/loss.py:BaseLoss._check_set_input_params", "zfit/core/loss.py:BaseLoss.check_precompile", "zfit/core/loss.py:BaseLoss.value", "zfit/core/loss.py:BaseLoss.__call__", "zfit/core/parameter.py:set_values"]}
{"id": "C124", "title": "A rejected evaluation changes no parameter", "statement": "If an evaluation at given values raises because a value is outside of the limits of its parameter, all parameters have the values they had before.", "quantifier": "all models and losses and all values", "why_tests_cant": "a statement about all mappings of values, stores of parameters and histories of evaluations", "anchors": ["zfit/core/baseobject.py:BaseParametrized._check_set_input_params", "zfit/core/loss.py:BaseLoss.__call__", "zfit/core/parameter.py:set_values", "zfit/util/temporary.py:TemporarilySet"]}
{"id": "C125", "title": "The symmetric error is that of the parabola", "statement": "For a loss that is a parabola around its minimum (any number of parameters, any correlation), the error that hesse gives for a parameter and a number of sigmas is the distance at which the loss, minimised over all the other parameters, is higher by errordef * sigma**2 than at the minimum, whatever the method and the kind of loss.", "quantifier": "all parabolas with a positive definite matrix of second derivatives, all sigmas, methods and errordefs", "why_tests_cant": "a statement about all losses, minima, covariances and data", "anchors": ["zfit/minimizers/fitresult.py:_covariance_np", "zfit/minimizers/fitresult.py:_covariance_minuit", "zfit/minimizers/fitresult.py:FitResult.hesse", "zfit/minimizers/fitresult.py:FitResult.covariance"]}
{"id": "C126", "title": "Covariance and hesse are those at the minimum", "statement": "The covariance and the errors of a fit result describe its minimum: they do not depend on the values the parameters happen to have when they are asked for.", "quantifier": "all fit results, all methods and all current values of the parameters", "why_tests_cant": "a statement about all losses, minima, covariances and data", "anchors": ["zfit/minimizers/fitresult.py:_covariance_np", "zfit/minimizers/fitresult.py:_covariance_minuit", "zfit/minimizers/fitresult.py:_covariance_approx", "zfit/minimizers/fitresult.py:FitResult.covariance"]}
{"id": "C127", "title": "Asking for uncertainties leaves the parameters as they are", "statement": "covariance and hesse leave all parameters at the values they had before the call, for every method and every selection of parameters.", "quantifier": "all fit results, methods, selections and values of the parameters", "why_tests_cant": "a statement about all losses, minima, covariances and data", "anchors": ["zfit/minimizers/fitresult.py:FitResult._input_check_reset_params", "zfit/minimizers/fitresult.py:_covariance_minuit", "zfit/minimizers/fitresult.py:FitResult.covariance"]}
{"id": "C128", "title": "Asymptotic correction of the covariance for weights", "statement": "With weighted data and weightcorr=\"asymptotic\" the covariance is H^-1 C H^-1, with H the second derivatives of the weighted loss and C the sum over the events of squared weight times outer product of the derivatives of their contribution to the loss; it is symmetric and positive semi-definite, does not change if all weights are multiplied by a constant, and is H^-1 if all weights are one and H is the sum of the outer products. This holds for fits with yields and with constraints too: for a yield alone the variance is the sum of the squared weights, and a parameter that only a constraint determines has the width of the constraint.", "quantifier": "all losses with any number of models, events, weights, yields and constraints", "why_tests_cant": "a statement about all losses, minima, covariances and data", "anchors": ["zfit/minimizers/errors.py:covariance_with_weights", "zfit/minimizers/errors.py:autodiff_pdf_jacobian", "zfit/minimizers/errors.py:WeightCorr"]}
{"id": "C129", "title": "Correction of the covariance by the effective sample size", "statement": "With weighted data and weightcorr=\"effsize\" the covariance is the uncorrected one multiplied by sum(w**2)/sum(w), with w=1 for the events of data without weights.", "quantifier": "all losses with any number of models, events and weights", "why_tests_cant": "a statement about all losses, minima, covariances and data", "anchors": ["zfit/minimizers/errors.py:covariance_with_weights", "zfit/minimizers/errors.py:WeightCorr"]}
{"id": "C130", "title": "Asymmetric errors are those of the profile of the loss", "statement": "The errors of a parameter (errors with the zfit method) are the distances to the points below and above its value where the loss, minimised over all the other parameters, is higher by errordef * sigma**2 than at the minimum; a root is only reported at a point that was evaluated, on the requested side, with the loss at this level within the tolerance, and after a first miss only if five evaluations in a row agree; a new minimum is only reported where the loss is lower than the minimum by more than the tolerance.", "quantifier": "all losses, parameters, minima, sigmas and all sequences of points the root finder may choose", "why_tests_cant": "a statement about all losses, minima, covariances and data", "anchors": ["zfit/minimizers/errors.py:compute_errors", "zfit/minimizers/errors.py:RootFound", "zfit/minimizers/errors.py:NewMinimum"]}
{"id": "C131", "title": "The search for the errors starts within the limits", "statement": "The starting points of the search for the asymmetric errors are within the limits of every parameter, in the direction of the step along the covariance and not further away than it; without limits they are at the step; and the search fails before it starts exactly if all of the shrunken steps of some parameter lead outside of its limits, in particular for a parameter at the limit in this direction.", "quantifier": "all covariances, limits, values, sigmas and directions", "why_tests_cant": "a statement about all losses, minima, covariances and data", "anchors": ["zfit/minimizers/errors.py:compute_errors"]}
{"id": "C132", "title": "A binned likelihood is smallest where the model predicts the data", "statement": "For BinnedNLL and ExtendedBinnedNLL, with any number of models and datasets: among all points with non-negative predictions the loss, apart from the constraints, is smallest where the prediction of every bin (counts, or relative counts times the number of events) is its content, empty bins included, and only there.", "quantifier": "all binned models and histograms with non-negative contents, all pairs of points", "why_tests_cant": "a statement about all models, datasets and points of the parameters", "anchors": ["zfit/_loss/binnedloss.py:poisson_loss_calc", "zfit/_loss/binnedloss.py:ExtendedBinnedNLL._loss_func", "zfit/_loss/binnedloss.py:BinnedNLL._loss_func"]}
{"id": "C133", "title": "A chi-squared loss is zero exactly where the model predicts the data", "statement": "BinnedChi2 and ExtendedBinnedChi2 are, apart from the constraints, never negative, and zero exactly if every bin whose variance is not zero (with errors=\"expected\": every bin) has the predicted content.", "quantifier": "all binned models and histograms, all points", "why_tests_cant": "a statement about all models, datasets and points of the parameters", "anchors": ["zfit/_loss/binnedloss.py:chi2_loss_calc", "zfit/_loss/binnedloss.py:BinnedChi2._loss_func", "zfit/_loss/binnedloss.py:ExtendedBinnedChi2._loss_func"]}
{"id": "C134", "title": "An extended fit gives the number of events as yields", "statement": "The extended unbinned likelihood is the unbinned one plus a term that is smallest exactly where the yield of every model is the number of events (the sum of weights) of its dataset: a minimum of the unbinned likelihood with these yields is a minimum of the extended one, and the shape that fits best does not depend on whether the fit is extended.", "quantifier": "all extended models, datasets, weights and points with positive yields", "why_tests_cant": "a statement about all models, datasets and points of the parameters", "anchors": ["zfit/core/loss.py:ExtendedUnbinnedNLL._loss_func", "zfit/core/loss.py:_unbinned_nll_tf"]}
{"id": "C135", "title": "A fit range is the same as cutting the data", "statement": "A likelihood with a fit range has the same value as the likelihood of the model normalised to this range and the data restricted to it, for unbinned and extended unbinned likelihoods.", "quantifier": "all models, datasets, ranges and points", "why_tests_cant": "a statement about all models, datasets and points of the parameters", "anchors": ["zfit/core/loss.py:_unbinned_nll_tf", "zfit/core/loss.py:ExtendedUnbinnedNLL._loss_func", "zfit/core/loss.py:UnbinnedNLL"]}
{"id": "C136", "title": "Events contribute to a likelihood independently of each other", "statement": "The unbinned likelihood does not depend on the order of the events; a simultaneous fit of one model to two datasets has the value of the fit to the two together; an event with weight k counts as k events; multiplying all weights by a number multiplies the loss (apart from constraints); and every event contributes a finite amount, also where the density is zero.", "quantifier": "all models, datasets, weights, ranges and points", "why_tests_cant": "a statement about all models, datasets and points of the parameters", "anchors": ["zfit/core/loss.py:_unbinned_nll_tf", "zfit/core/loss.py:_nll_calc_unbinned_tf", "zfit/core/loss.py:UnbinnedNLL._loss_func"]}
{"id": "C137", "title": "A partial integral that is returned is the right one", "statement": "Whichever of the methods for (partial) integrals a PDF overrides and whichever analytic integrals are registered, as long as each of them is right where it answers: a value returned by partial_integrate or partial_analytic_integrate is the integral over all pieces of the limits at the event, divided by the integral over the normalisation range if there is one; and over limits with one piece partial_integrate always returns it, unless a registered integral raises on its own.", "quantifier": "all combinations of overridden methods, registered integrals and what their decorators support; all events, limits and normalisation ranges", "why_tests_cant": "the combinations of overridden methods, supported norms and numbers of pieces are too many, and the fallbacks depend on which exceptions are raised", "anchors": ["zfit/core/basemodel.py: partial_integrate, partial_analytic_integrate, _norm_partial_integrate, _limits_partial_integrate, _call_partial_integrate, _fallback_partial_integrate", "zfit/core/space.py: supports"]}
{"id": "C138", "title": "A partial integral over several pieces is the sum over the pieces", "statement": "partial_integrate over limits with several pieces returns the sum of the partial integrals over the pieces, for every PDF for which those over the single pieces are returned.", "quantifier": "all PDFs, events, and lists of pieces", "why_tests_cant": "must hold for every PDF; tests only use limits with one piece", "anchors": ["zfit/core/basemodel.py: _limits_partial_integrate", "zfit/core/integration.py: mc_integrate"]}
{"id": "C139", "title": "partial_numeric_integrate gives the numeric partial integral", "statement": "partial_numeric_integrate returns the partial integral at the event, normalised over the given (or default) normalisation range, or not normalised if norm is False.", "quantifier": "all PDFs, events, limits and normalisation ranges", "why_tests_cant": "must hold for every PDF and argument; the method is not tested", "anchors": ["zfit/core/basemodel.py: partial_numeric_integrate, _partial_numeric_integrate, _norm_partial_numeric_integrate", "zfit/util/deprecation.py: deprecated_norm_range"]}
{"id": "C140", "title": "A numeric partial integral matches observables by name", "statement": "If the limits and the event share the observables of the model between them, the numeric partial integral is the volume of the limits times the mean of the function over points where each observable of the limits runs through its own limits and each other observable has the value that the event has for that name; the order in which the observables of the limits and of the event are given does not matter.", "quantifier": "all functions, observables and their orders, limits, events, sequences of points and numbers of draws", "why_tests_cant": "all orders and numbers of observables", "anchors": ["zfit/core/integration.py: mc_integrate", "zfit/core/basemodel.py: _convert_sort_x, _convert_sort_space"]}
{"id": "C141", "title": "A partial integral integrates over its limits whatever further observables the event has", "statement": "If the event given to partial_integrate has observables besides the ones that are not integrated over, these are ignored or refused: a value that is returned is the integral over the limits.", "quantifier": "all functions, limits and events with any further observables", "why_tests_cant": "all combinations of observables", "anchors": ["zfit/core/integration.py: mc_integrate", "zfit/core/basemodel.py: partial_integrate, _convert_sort_x"]}
{"id": "C142", "title": "The number of events to sample is taken as documented", "statement": "sample(n) draws n events for a number n; without n or with n='extended' it draws a Poisson number if the PDF is extended; n='extended' raises NotExtendedPDFError if the PDF is not extended; another string, or no n for a PDF that is not extended, raises ValueError.", "quantifier": "all PDFs (extended or not) and arguments n: nothing, numbers, all strings", "why_tests_cant": "all strings; tests try only the documented one", "anchors": ["zfit/core/basemodel.py: sample", "zfit/core/basepdf.py: _hook_sample"]}
{"id": "C143", "title": "Extended sampling follows yield times PDF", "statement": "sample() of an extended PDF over its normalisation range: the expected number of occurrences of each event is the yield of the PDF times the probability of the event, for all trees of PDFs with yields.", "quantifier": "all trees of extended PDFs, sums and wrappers of any depth and width, all yields, probabilities and events", "why_tests_cant": "statistical statement for all trees of PDFs; a test can only look at samples of a few", "anchors": ["zfit/core/sample.py: extended_sampling, extract_extended_pdfs", "zfit/core/basepdf.py: _hook_sample"]}
{"id": "C144", "title": "A sample of a sum follows the sum", "statement": "sample(n) of a SumPDF over limits in which each component is normalised has exactly n events, inside the limits, and each event is expected n times the sum of fraction times probability in the component, provided the components' samples follow their PDFs.", "quantifier": "all numbers of components, fractions that add up to one, components, n and events; all multinomial draws and shuffles", "why_tests_cant": "statistical statement for every number of components and all fractions", "anchors": ["zfit/models/functor.py: SumPDF._sample", "zfit/z/random.py: counts_multinomial"]}
{"id": "C145", "title": "A sample of a sum in narrower limits follows the sum there", "statement": "sample(n, limits) of a SumPDF with limits other than its normalisation range follows the PDF restricted to the limits: each event in the limits is expected n times its probability given that it is in the limits.", "quantifier": "all sums, fractions, limits, n and events", "why_tests_cant": "statistical statement for all limits", "anchors": ["zfit/models/functor.py: SumPDF._sample"]}
{"id": "C146", "title": "A sample of a truncated PDF follows the PDF inside its limits", "statement": "sample(n) of a TruncatedPDF has exactly n events, all inside its limits, and each event is expected n times its probability in the wrapped PDF given that it is in the limits, however many disjoint limits there are.", "quantifier": "all wrapped PDFs, lists of disjoint limits, n and events; all multinomial draws", "why_tests_cant": "statistical statement for every number of limits", "anchors": ["zfit/models/truncated.py: TruncatedPDF._sample"]}
{"id": "C147", "title": "The columns of a sample of a product are those of its factors", "statement": "In sample(n) of a ProductPDF the column of each observable contains what was drawn for that observable, from the factor that has it, and there are n events if nothing drawn is outside the limits.", "quantifier": "all numbers and orders of factors, with and without common observables, all orders of the observables of the product, all draws", "why_tests_cant": "all combinations of orders and common observables", "anchors": ["zfit/models/functor.py: ProductPDF._sample, ProductPDF.__init__", "zfit/core/basemodel.py: sample", "zfit/core/data.py: concat_data_obs"]}
{"id": "C148", "title": "A sample of a product has as many events as asked for", "statement": "sample(n, limits) of a ProductPDF returns n events, if each factor can draw n events in the projection of the limits on its observables.", "quantifier": "all products, draws and limits, also such that are no box", "why_tests_cant": "all shapes of limits", "anchors": ["zfit/models/functor.py: ProductPDF._sample", "zfit/core/basemodel.py: sample", "zfit/core/space.py: MultiSpace.with_obs"]}
{"id": "C149", "title": "The value of a formula of functions", "statement": "A function made with +, * and multiplication by parameters, SumFunc and ProdFunc from other functions, nested in any way, has at every event the value of the formula, where each function gets the values that the event has for the names of its observables, whatever the order of the columns and whatever other columns there are; an event without one of the observables is refused; the columns of an array are taken as the observables of the function in their order.", "quantifier": "all formulas of any depth and width, observables and their orders, functions, parameter values and events", "why_tests_cant": "all formulas and orders of observables", "anchors": ["zfit/models/functions.py: SimpleFuncV1, SumFunc, ProdFunc", "zfit/core/basefunc.py: func", "zfit/core/operations.py: multiply_param_func, multiply_func_func, add_func_func", "zfit/core/basemodel.py: _convert_sort_x"]}
{"id": "C150", "title": "A formula of functions reports its parameters", "statement": "get_params of a function made of others contains every parameter that its value depends on: if no reported parameter changes, the value does not change.", "quantifier": "all formulas, functions that depend only on the parameters they were given, keywords, names of parameters and values", "why_tests_cant": "all formulas and names", "anchors": ["zfit/core/operations.py: multiply_param_func", "zfit/models/functions.py: BaseFunctorFuncV1", "zfit/models/basefunctor.py: _get_params"]}
{"id": "C151", "title": "A function as PDF", "statement": "func.as_pdf() is a PDF that is not extended, has the function as density and reports all parameters that the function reports.", "quantifier": "all functions, keywords and parameters", "why_tests_cant": "all functions and keywords", "anchors": ["zfit/core/operations.py: convert_func_to_pdf", "zfit/models/special.py: SimplePDF"]}
{"id": "C152", "title": "Formulas of functions keep the limits", "statement": "If the functions in a formula have limits and these agree, then the formula is a function with these limits for its observables.", "quantifier": "all formulas of any depth and width, functions and limits", "why_tests_cant": "all formulas", "anchors": ["zfit/core/operations.py: multiply_param_func, convert_func_to_pdf", "zfit/models/basefunctor.py: extract_daughter_input_obs", "zfit/core/space.py: combine_spaces"]}
{"id": "C153", "title": "The analytic integral of a sum of functions", "statement": "If the analytic integrals of the functions are right, analytic_integrate of their sum over limits in all observables is the integral of the sum over these limits.", "quantifier": "all numbers of functions, observables, limits and analytic integrals", "why_tests_cant": "all combinations of observables", "anchors": ["zfit/models/functions.py: SumFunc._analytic_integrate", "zfit/core/basemodel.py: analytic_integrate, _convert_sort_space"]}
{"id": "C154", "title": "Copying a function", "statement": "copy(**params) of a function returns a function with the given parameters in place of its own and leaves the function it is called on unchanged.", "quantifier": "all functions and parameters", "why_tests_cant": "all functions and parameters", "anchors": ["zfit/core/basefunc.py: copy", "zfit/core/baseobject.py: params"]}
{"id": "C155", "title": "Updates of a binned sampler are all or nothing", "statement": "update_data of a binned sampler either replaces contents and variances by those given, or raises and leaves the sampler unchanged.", "quantifier": "all samplers, contents, variances, data sets and states of the option to hash data", "why_tests_cant": "all contents and failure points", "anchors": ["zfit/_data/binneddatav1.py: BinnedSamplerData.update_data, _update_hash"]}
{"id": "C156", "title": "A binned sampler has one content for each bin", "statement": "After any sequence of update_data and resample, successful or not, the contents (and the variances, if any) of a binned sampler have exactly one entry for each bin.", "quantifier": "all binnings, samplers and histories of updates and resamplings", "why_tests_cant": "all histories and shapes", "anchors": ["zfit/_data/binneddatav1.py: BinnedSamplerData.__init__, update_data, resample"]}
{"id": "C157", "title": "Binned data given to a binned sampler fills the same bins", "statement": "After update_data with binned data, the content of each bin of the sampler, named by observable and edges, is the content of this bin in the data.", "quantifier": "all samplers and data sets with the same observables, in any order", "why_tests_cant": "all orders and binnings", "anchors": ["zfit/_data/binneddatav1.py: BinnedSamplerData.update_data"]}
{"id": "C158", "title": "What resample samples with", "statement": "After any history, resample calls the sampling function with the number of events asked for (else the one given at creation), and with each parameter at the value given now, by name or by parameter, else the value given at creation; values given in two ways or not as mapping or result are refused, nothing is sampled and nothing changes.", "quantifier": "all samplers, binned and unbinned, histories, numbers and values of parameters", "why_tests_cant": "all histories and combinations of values", "anchors": ["zfit/_data/binneddatav1.py: BinnedSamplerData.resample, from_sampler", "zfit/core/data.py: SamplerData.resample, from_sampler", "zfit/core/parameter.py: set_values"]}
{"id": "C159", "title": "A loss notices that its data has changed", "statement": "When the contents of a sampler that is used in a loss have changed since the last evaluation of the loss, the loss checks its data again at the next one.", "quantifier": "all histories of evaluations and updates, all contents, all hash functions", "why_tests_cant": "all histories and contents", "anchors": ["zfit/core/loss.py: _check_precompile, _ensure_data_unchanged", "zfit/_data/binneddatav1.py: BinnedSamplerData._update_hash", "zfit/core/data.py: SamplerData._update_hash"]}
{"id": "C160", "title": "Binned data and histograms", "statement": "from_hist keeps contents, variances, names and edges of every histogram with named, untransformed regular or variable axes and refuses others; binned data converted with to_hist and back with from_hist is the same data.", "quantifier": "all histograms and binned data sets", "why_tests_cant": "all histograms", "anchors": ["zfit/_data/binneddatav1.py: BinnedHolder.from_hist, BinnedData.to_hist, _to_boost_histogram_", "zfit/_variables/axis.py: new_from_axis"]}
{"id": "C161", "title": "Variances of binned data", "statement": "variances=True gives each bin the variance of a Poisson distributed count, which is its content; given variances are stored; with_variances returns the same data with the given variances, if they have the shape of the contents.", "quantifier": "all contents and variances, binned data and samplers", "why_tests_cant": "all contents", "anchors": ["zfit/_data/binneddatav1.py: BinnedData.from_tensor, BinnedHolder.with_variances, BinnedData.with_variances"]}
{"id": "C162", "title": "The events of a sampler are inside its limits", "statement": "After any sequence of update_data and resample all events of an unbinned sampler are inside its limits, unless the user guaranteed it with guarantee_limits=True.", "quantifier": "all samplers, sampling functions and histories", "why_tests_cant": "all histories and sampling functions", "anchors": ["zfit/core/data.py: SamplerData.from_sampler, update_data, resample"]}
{"id": "C163", "title": "A data set given to an unbinned sampler", "statement": "update_data with a data set that has at least the observables of the sampler, in any order, and weights exactly if the sampler has some: the sampler then has exactly the events inside its own limits, each observable in its own column, with their weights; a data set together with weights is refused and nothing changes.", "quantifier": "all samplers, data sets, orders of observables, limits and weights", "why_tests_cant": "all orders of observables and data sets", "anchors": ["zfit/core/data.py: SamplerData.update_data"]}
{"id": "C164", "title": "A sampler that could be created can be resampled", "statement": "If a sampler was created from a sampling function, then resample with the same function succeeds and the sampler has exactly what was drawn.", "quantifier": "all samplers, binned and unbinned, sampling functions and numbers of events", "why_tests_cant": "all sampling functions", "anchors": ["zfit/core/data.py: SamplerData.from_sampler, resample", "zfit/_data/binneddatav1.py: BinnedSamplerData.from_sampler, resample"]}
{"id": "C165", "title": "What a minimisation varies", "statement": "minimize varies exactly the floating independent parameters behind those it is given (those of the loss, or of the result it is given instead of a loss, if none are given), each once; if there are none, it raises and starts nothing.", "quantifier": "all losses, functions, results, parameters of any nesting, dictionaries and lists of values", "why_tests_cant": "all nestings and ways to call it", "anchors": ["zfit/minimizers/baseminimizer.py: BaseMinimizer.minimize, _check_convert_input, _filter_floating_params"]}
{"id": "C166", "title": "Start values without a result to start from", "statement": "A minimisation that is not started from a result starts each parameter at the value that the call gives for it, by position or in a dictionary, otherwise at its current value, and changes no other parameter before the algorithm runs.", "quantifier": "all calls of minimize without init, all values", "why_tests_cant": "all calls and values", "anchors": ["zfit/minimizers/baseminimizer.py: BaseMinimizer._check_convert_input", "zfit/core/parameter.py: assign_values"]}
{"id": "C167", "title": "Start values with a result to start from", "statement": "With a result to start from, a parameter starts at the value that the call gives for it, else at the value in the result, else at its current value.", "quantifier": "all calls of minimize with init or with a result as loss", "why_tests_cant": "all calls and values", "anchors": ["zfit/minimizers/baseminimizer.py: BaseMinimizer._check_convert_input", "zfit/minimizers/minimizers_scipy.py: ScipyBaseMinimizer._minimize", "zfit/minimizers/minimizer_minuit.py: Minuit._minimize", "zfit/minimizers/minimizer_nlopt.py: NLoptBaseMinimizer._minimize", "zfit/minimizers/ipopt.py: Ipyopt._minimize"]}
{"id": "C168", "title": "The result to start from may have other parameters", "statement": "The parameters of the result to start from may differ from those that are minimised in order and in which are fixed: those it has start at its values, the others at their current ones.", "quantifier": "all losses and results", "why_tests_cant": "all combinations of parameters", "anchors": ["zfit/minimizers/baseminimizer.py: BaseMinimizer.minimize, _check_convert_input", "zfit/core/parameter.py: assign_values, check_convert_param_values_assign"]}
{"id": "C169", "title": "Minimisers can be chained in any order", "statement": "The result of any minimiser can be used as the start of any other minimiser.", "quantifier": "all SciPy minimisers, all results", "why_tests_cant": "all pairs of minimisers", "anchors": ["zfit/minimizers/minimizers_scipy.py: ScipyPowell, ScipyNelderMead, ScipyBaseMinimizer._minimize", "zfit/minimizers/fitresult.py: FitResult.from_minuit, from_scipy, from_nlopt, from_ipopt"]}
{"id": "C170", "title": "A minimiser can be used again", "statement": "What a SciPy minimiser calls SciPy with does not depend on what the minimiser has been used for before.", "quantifier": "all SciPy minimisers, options, histories of minimisations of any losses", "why_tests_cant": "all histories", "anchors": ["zfit/minimizers/minimizers_scipy.py: ScipyBaseMinimizer._minimize, ScipyTrustNCG, ScipyTrustConstr, ScipyTruncNC, ScipyPowell, ScipyNelderMead"]}
{"id": "C171", "title": "Options given to a SciPy minimiser are used", "statement": "An option that a SciPy minimiser was created with reaches SciPy with the value given.", "quantifier": "all SciPy minimisers, options and histories of minimisations", "why_tests_cant": "all options and histories", "anchors": ["zfit/minimizers/minimizers_scipy.py: ScipyBaseMinimizer._minimize, ScipyTrustNCG, ScipyTrustConstr"]}
{"id": "C172", "title": "A call of minimize that is refused changes nothing", "statement": "If minimize raises because of its arguments, before the algorithm starts, all parameters have the values they had before.", "quantifier": "all calls of minimize", "why_tests_cant": "all calls and failure points", "anchors": ["zfit/minimizers/baseminimizer.py: BaseMinimizer._check_convert_input"]}
{"id": "C173", "title": "Forms of start values", "statement": "Start values can be given as a list, a tuple or an array, one for each free parameter of the loss, also with a function instead of a loss.", "quantifier": "all losses, functions and values", "why_tests_cant": "all values", "anchors": ["zfit/minimizers/baseminimizer.py: BaseMinimizer.minimize, _check_convert_input", "zfit/util/container.py: convert_to_container"]}
{"id": "C174", "title": "Objects of the same name are all saved", "statement": "Every PDF, data set, constraint and loss that is handed to zfit.hs3.dumps is in the document, also if several have the same name.", "quantifier": "all lists of objects with all names, all addresses of objects", "why_tests_cant": "all lists of names, and the result depends on addresses in memory", "anchors": ["zfit/serialization/serializer.py: Serializer.to_hs3"]}
{"id": "C175", "title": "Loaded objects share parameters by name", "statement": "In what is loaded from a document there is one parameter for each name: the one in the variables is the one at all places of all objects with that name, and different names have different parameters.", "quantifier": "all documents of any nesting, all parameters to reuse, all processes", "why_tests_cant": "all documents and nestings", "anchors": ["zfit/serialization/serializer.py: Serializer.from_hs3, initialize", "zfit/serialization/paramrepr.py: make_param_constructor"]}
{"id": "C176", "title": "reuse_params is honoured", "statement": "Parameters given as reuse_params are used wherever their name occurs and are not changed; all other parameters of the document are created, with what the document says.", "quantifier": "all documents of any nesting, all parameters to reuse, all processes", "why_tests_cant": "all documents and nestings", "anchors": ["zfit/serialization/serializer.py: Serializer.from_hs3, initialize", "zfit/serialization/paramrepr.py: make_param_constructor"]}
{"id": "C177", "title": "Loads do not influence each other", "statement": "Whatever was loaded before, and whether that failed or not, a load creates new parameters for all names that are not given to be reused and changes no parameter that exists.", "quantifier": "all histories of loads, including ones that fail at any object, all documents", "why_tests_cant": "all histories and points of failure", "anchors": ["zfit/serialization/serializer.py: Serializer.from_hs3, initialize", "zfit/serialization/paramrepr.py: make_param_constructor"]}
{"id": "C178", "title": "Objects that are saved and loaded keep their parameters", "statement": "Objects that are saved to a document and loaded have parameters with the names and contents of the original ones, shared exactly as these were.", "quantifier": "all lists of objects of any nesting, all parameters", "why_tests_cant": "all objects and ways to share parameters", "anchors": ["zfit/serialization/serializer.py: Serializer.to_hs3, from_hs3, post_serialize, pre_deserialize"]}
{"id": "C179", "title": "Loading leaves the document as it was", "statement": "The mapping that is given to zfit.hs3.loads is the same after the call as before.", "quantifier": "all documents", "why_tests_cant": "all documents", "anchors": ["zfit/serialization/serializer.py: Serializer.from_hs3"]}
{"id": "C180", "title": "A document can be loaded again", "statement": "Loading a mapping a second time loads the same objects as the first time.", "quantifier": "all documents", "why_tests_cant": "all documents", "anchors": ["zfit/serialization/serializer.py: Serializer.from_hs3, pre_deserialize"]}
{"id": "C181", "title": "PDFs that are saved and loaded have the same density", "statement": "A PDF that is saved and loaded has the same density for all values of its parameters and at all points.", "quantifier": "all basic PDFs and sums of any nesting, all parameters, fractions and norms", "why_tests_cant": "all nestings, values and points", "anchors": ["zfit/serialization/pdfrepr.py: BasePDFRepr", "zfit/models/basefunctor.py: FunctorPDFRepr, _preprocess_init_sum", "zfit/models/functor.py: SumPDF, SumPDFRepr"]}
{"id": "C182", "title": "PDFs that are saved and loaded have the same yield", "statement": "A PDF that is saved and loaded is extended if and only if it was, with the same yield.", "quantifier": "all basic PDFs and sums of any nesting, all yields, all ways to extend them", "why_tests_cant": "all nestings and yields", "anchors": ["zfit/serialization/pdfrepr.py: BasePDFRepr", "zfit/models/basefunctor.py: FunctorPDFRepr, _preprocess_init_sum", "zfit/models/functor.py: SumPDF, SumPDFRepr"]}
{"id": "C183", "title": "Entries of a result by parameter and name", "statement": "result.params behaves as a dictionary by name: a look-up by a parameter or by its name gives the entry of that name with everything noted for it, anything else raises a KeyError, and `in` says whether the entry exists, whatever was done with the result before, including freezing it.", "quantifier": "all results with distinct names, all histories of errors, covariances and freezing, all items", "why_tests_cant": "all histories and all items", "anchors": ["zfit/minimizers/fitresult.py: NameToParamGetitem, ParamHolder, FitResult._cache_errors, freeze"]}
{"id": "C184", "title": "Values of a result by parameter, name and position", "statement": "result.values gives the fitted value of a parameter by the parameter, by its name and by its position, and `in` says whether a parameter is in the result, at any time.", "quantifier": "all results, all histories, all parameters, names and positions", "why_tests_cant": "all histories and items", "anchors": ["zfit/minimizers/fitresult.py: NameToParamGetitem, ListWithKeys, ValuesHolder, FitResult.freeze"]}
{"id": "C185", "title": "Freezing keeps what a result knows", "statement": "Freezing a result that has a criterion works; afterwards the entries of the parameters, the values at each position, every covariance that was calculated (asked for by names) and the gradient are what they were, and what was not calculated before is refused.", "quantifier": "all results with distinct names and a criterion, all histories before, all parameters asked for in any order", "why_tests_cant": "all histories and all subsets of parameters in any order", "anchors": ["zfit/minimizers/fitresult.py: FitResult.freeze, covariance, Approximations.freeze, gradient"]}
{"id": "C186", "title": "Freezing works or changes nothing", "statement": "A call of freeze either freezes the result or raises and leaves the result as it was.", "quantifier": "all results, all histories", "why_tests_cant": "all histories, points of failure", "anchors": ["zfit/minimizers/fitresult.py: FitResult.freeze"]}
{"id": "C187", "title": "The gradient in the order asked for", "statement": "result.approx.gradient(params) has one entry for each parameter asked for, in the order asked for, and it is the derivative for that parameter.", "quantifier": "all lists of parameters, all gradients", "why_tests_cant": "all orders and subsets", "anchors": ["zfit/minimizers/fitresult.py: Approximations.gradient"]}
{"id": "C188", "title": "Hessian and inverse Hessian fit together", "statement": "What result.approx answers for the Hessian and for its inverse is what it was made with or the inverse of the other, and does not depend on what was asked before.", "quantifier": "all approximations, all sequences of calls", "why_tests_cant": "all sequences of calls", "anchors": ["zfit/minimizers/fitresult.py: Approximations.hessian, inv_hessian"]}
{"id": "C189", "title": "The approximate covariance belongs to the parameters", "statement": "The covariance of two parameters with method 'approx' is the entry of the approximate inverse Hessian for these two parameters.", "quantifier": "all results, all approximations with their parameters, all parameters asked for", "why_tests_cant": "all orders of parameters", "anchors": ["zfit/minimizers/fitresult.py: _covariance_approx, Approximations"]}
{"id": "C190", "title": "Where the approximations of a result come from", "statement": "The gradient and the Hessian of result.approx are those given by the caller, or else those in the information of the minimiser, or else the last ones of the evaluator.", "quantifier": "all arguments of the constructor and of from_nlopt", "why_tests_cant": "all combinations of what is given", "anchors": ["zfit/minimizers/fitresult.py: FitResult._input_convert_approx, from_nlopt"]}
{"id": "C191", "title": "Making a result leaves the mapping of approximations alone", "statement": "A mapping given as approximations to FitResult is the same afterwards, so that it can be used for another result.", "quantifier": "all mappings, all other arguments", "why_tests_cant": "all mappings and arguments", "anchors": ["zfit/minimizers/fitresult.py: FitResult._input_convert_approx"]}
{"id": "C192", "title": "A result that is not valid says why", "statement": "A result has an empty message and status 0 if it is valid, and a message and another status if it is not, also after errors have been calculated.", "quantifier": "all arguments of the constructor, all sequences of calls of errors", "why_tests_cant": "all combinations of flags and histories", "anchors": ["zfit/minimizers/fitresult.py: FitResult.__init__, valid, errors"]}
{"id": "C193", "title": "A hook is called only with norms it declared", "statement": "A method decorated with supports(norm=...) is run only with a norm that it declared (none, False, a space without limits as False, any if norm=True, the space or norm of the PDF if 'space' or 'norm'); for any other norm it is not run and the exception is raised that makes the library divide by the normalisation.", "quantifier": "all methods with their signatures, declarations, PDFs, norms and ways of giving them", "why_tests_cant": "all signatures and calls", "anchors": ["zfit/core/space.py: supports, check_norm, no_norm_range, param_args_supported"]}
{"id": "C194", "title": "A hook is called only with limits it declared", "statement": "A method with limits that is decorated with supports() without multiple_limits is never run with several limits; the exception that makes the library treat the pieces is raised instead. Otherwise it is run with the limits that were given.", "quantifier": "all methods with a parameter limits, all bodies, declarations and calls, all numbers of pieces", "why_tests_cant": "all signatures and calls", "anchors": ["zfit/core/space.py: supports, no_multiple_limits"]}
{"id": "C195", "title": "A hook is called once, with the parameters if it wants them", "statement": "A decorated method is run exactly once for a call with a norm and limits it declared, gets the current values of the parameters exactly if it has an argument params, and what it returns or raises is what the call returns or raises.", "quantifier": "all methods, declarations and calls, all bodies", "why_tests_cant": "all signatures, calls and outcomes of the body", "anchors": ["zfit/core/space.py: supports, param_args_supported, check_norm"]}
{"id": "C196", "title": "Hooks without the decorator are refused", "statement": "Defining a PDF, binned PDF or minimiser class fails if one of the hooks that receive norms, limits or start values is overridden, in the class or any base or mixin, without the decorator, and succeeds if none is.", "quantifier": "all classes with their method resolution order", "why_tests_cant": "all class hierarchies", "anchors": ["zfit/core/basemodel.py: BaseModel._subclass_check_support, __init_subclass__", "zfit/core/basepdf.py: BasePDF.__init_subclass__", "zfit/core/binnedpdf.py: BaseBinnedPDF._subclass_check_support", "zfit/minimizers/baseminimizer.py: BaseMinimizer._subclass_check_support"]}
{"id": "C197", "title": "Registered integrals belong to one class", "statement": "The analytic integral, and the inverse, that a class uses is the one registered last with that class for these limits; registering with a class never changes what a base class, a subclass or another class uses, in any order of definitions and registrations.", "quantifier": "all histories of class definitions and registrations, all classes and limits", "why_tests_cant": "all histories", "anchors": ["zfit/core/basemodel.py: BaseModel.__init_subclass__, register_analytic_integral, register_inverse_analytic_integral", "zfit/core/integration.py: AnalyticIntegral.register"]}
{"id": "C198", "title": "The parameters of a simple PDF are those declared", "statement": "A class derived from ZPDF without _PARAMS, or with something else than strings in it, is refused. A PDF of such a class is made exactly if all of _PARAMS and nothing unknown are given by keyword; its parameters are those of _PARAMS in this order with the values given. A missing parameter gives a ValueError, an unknown keyword an AssertionError.", "quantifier": "all lists _PARAMS of different names that are not arguments of the PDF itself, all keyword arguments", "why_tests_cant": "all names and arguments", "anchors": ["zfit/core/basemodel.py: SimpleModelSubclassMixin", "zfit/models/special.py: ZPDF", "zfit/core/baseobject.py: BaseObject.__init__"]}
{"id": "C199", "title": "ext_log_pdf is the logarithm of ext_pdf", "statement": "For an extended PDF, ext_log_pdf(x, norm) is the logarithm of ext_pdf(x, norm), whichever of the hooks the PDF implements.", "quantifier": "all extended PDFs with positive densities and yields, all combinations of hooks and what they support, all points and norms", "why_tests_cant": "all combinations of hooks, all densities and norms", "anchors": ["zfit/core/basepdf.py: BasePDF.ext_log_pdf, _call_ext_log_pdf, _auto_ext_log_pdf"]}
{"id": "C200", "title": "Binned observables give a binned PDF", "statement": "A PDF class called with a space with binning as observables gives the binned PDF over this space, with the yield that the unbinned PDF with the same arguments has, the norm given or the space, the label given and the name given or made from that of the unbinned PDF.", "quantifier": "all classes that use the argument extended, all arguments, positional and by keyword", "why_tests_cant": "all classes and arguments", "anchors": ["zfit/core/basepdf.py: PDFMeta.__call__, BasePDF.to_binned", "zfit/models/tobinned.py: BinnedFromUnbinnedPDF.__init__", "zfit/core/binnedpdf.py: BaseBinnedPDF.__init__"]}
{"id": "C201", "title": "The yield of a truncated PDF depends on all its parameters", "statement": "TruncatedPDF of an extended PDF gets a yield that depends on the yield of that PDF and on all its parameters, each under its own name and only once, and making it ends.", "quantifier": "all sets of parameters with different names, all yields", "why_tests_cant": "all names of parameters", "anchors": ["zfit/models/truncated.py: TruncatedPDF.__init__"]}
{"id": "C202", "title": "A projection integrates over exactly the other observables", "statement": "create_projection_pdf projects on some observables of the PDF and integrates over exactly the others, with the limits given, and those of the PDF otherwise; no observable is both. The yield is the one given or that of the PDF.", "quantifier": "all PDFs with their observables and limits, all observables and limits given, all arguments extended", "why_tests_cant": "all observables, limits and arguments", "anchors": ["zfit/core/basepdf.py: BasePDF.create_projection_pdf"]}
{"id": "C203", "title": "A PDF as a function", "statement": "pdf.as_func(norm) has the value pdf.pdf(x, norm) at every x, raises where this does, and depends on the same parameters.", "quantifier": "all PDFs, built of others or not, all points", "why_tests_cant": "all PDFs and points", "anchors": ["zfit/core/basepdf.py: BasePDF.as_func", "zfit/core/operations.py: convert_pdf_to_func", "zfit/models/functions.py: SimpleFuncV1"]}
{"id": "C204", "title": "Data to a table and back", "statement": "to_pandas gives a DataFrame with the observables asked for as columns, in this order and with the values of the data, and the weights, if any, as a further column with the name given. from_pandas of this table with the space of the data gives data with the same events and weights.", "quantifier": "all data with and without weights, in every state of its storage, all selections of observables, all names for the weights", "why_tests_cant": "all data and names", "anchors": ["zfit/core/data.py: Data.to_pandas, Data.from_pandas"]}
{"id": "C205", "title": "Data from a DataFrame", "statement": "from_pandas gives data with exactly the observables asked for, each with the values of the column of its name, in whatever order the columns are and whatever further columns there are, cut to the events inside of the limits, with the weights of the column named, or of the array, or of the column \"\" if none are given. Without obs all other columns are observables. A column that does not exist is refused.", "quantifier": "all tables and series, spaces with limits, and weights", "why_tests_cant": "all tables, spaces and weights", "anchors": ["zfit/core/data.py: Data.from_pandas, Data.from_mapping"]}
{"id": "C206", "title": "Data from a file with names for the branches", "statement": "from_root gives data in which each observable has the values of the branch that obs_alias names for it, or of the branch of its own name, cut to the events inside of the limits, with the weights of the branch or array given; with obs_alias alone the observables are the names given there. A branch that does not exist is refused.", "quantifier": "all trees of branches, spaces with limits, mappings of names and weights", "why_tests_cant": "all trees, spaces and mappings", "anchors": ["zfit/core/data.py: Data.from_root"]}
{"id": "C207", "title": "All ways of reading data agree", "statement": "Whatever sequence of reads is made of data, each gives the columns asked for, in this order: value(obs), data[obs], unstack_x(obs), value(axis), by one name, several or none; one name gives a one-dimensional array, unless always_list is given for unstack_x, which then gives a list. A name that the data does not have is refused.", "quantifier": "all data, all sequences of reads of all kinds, all names and axes", "why_tests_cant": "all histories of reads", "anchors": ["zfit/core/data.py: Data.value, Data.unstack_x, Data.__getitem__"]}
{"id": "C208", "title": "Limits given by a function", "statement": "A space whose limits are rectangles or functions of several observables, or a product of such spaces, contains a point exactly if the point lies in every rectangle and every function accepts it. Each function is given the values of the observables it was given for, in that order, however the observables of the space are reordered by with_obs. with_obs with fewer observables keeps exactly the limits of these observables, or refuses.", "quantifier": "all spaces built from rectangles, functions and products, all chains of with_obs and get_subspace, all functions, all points", "why_tests_cant": "all functions, histories and points", "anchors": ["zfit/core/space.py: Space.inside, Space.with_obs, Space.get_subspace, Limit, combine_spaces"]}
{"id": "C209", "title": "Subspaces of limits given by functions", "statement": "get_subspace gives a space with the observables asked for, in that order, that contains a point exactly if the point meets every limit whose observables are all asked for. It succeeds exactly if one of the observables is there and no function has only some of its observables asked for; such a function is refused with InvalidLimitSubspaceError.", "quantifier": "all spaces built from rectangles, functions and products, all observables asked for, all functions and points", "why_tests_cant": "all histories, requests and points", "anchors": ["zfit/core/space.py: Space.get_subspace, extract_limits_from_dict", "zfit/core/interfaces.py: ZfitLimit.get_subspace"]}
{"id": "C210", "title": "The ways to give a rectangle agree", "statement": "Space(obs, limits=(lower, upper)), Space(obs, lower=lower, upper=upper), Space(obs, rect_limits=(lower, upper)), Space(obs, (lower, upper)), and for one observable and two Python numbers Space(obs, lower, upper), mean the same: they are accepted exactly if there is an observable, there is one lower and one upper limit per observable and every lower limit is below its upper limit, and the space then contains exactly the points of the rectangle.", "quantifier": "all observables, all rectangles, all points", "why_tests_cant": "all rectangles and points", "anchors": ["zfit/core/space.py: Space.__init__, _legacy_get_arguments_space, Limit"]}
{"id": "C211", "title": "The bins of a space cover its limits", "statement": "In a binned space there is one axis per observable, in the order of the observables, and its first and last edges are the limits of the observable, however the space was made: from limits and numbers of bins, from axes, with new limits or a new binning, by reordering or restricting.", "quantifier": "all histories of making and changing binned spaces", "why_tests_cant": "all histories", "anchors": ["zfit/core/space.py: Space.__init__, Space.with_binning, Space.with_limits, Space.with_obs"]}
{"id": "C212", "title": "convert_to_space gives what is asked for", "statement": "convert_to_space(obs, limits) gives a space with the observables of obs and the limits given; a space given as obs keeps its limits if there are no others or they may not be overwritten, and gets the new ones otherwise. Limits for several observables at once are refused, and so are two spaces with other observables.", "quantifier": "all observables, spaces and limits", "why_tests_cant": "all combinations of arguments", "anchors": ["zfit/core/space.py: convert_to_space"]}
{"id": "C213", "title": "Combining unions of spaces", "statement": "combine_spaces of unions of spaces gives a space that contains a point exactly if every union contains it, or refuses; this does not depend on the order of the pieces of the unions.", "quantifier": "all lists of unions of rectangles, all points", "why_tests_cant": "all unions and points", "anchors": ["zfit/core/space.py: combine_spaces, MultiSpace"]}
{"id": "C214", "title": "The binning of a part of a space", "statement": "A part of a binned space, taken by with_obs or by get_subspace, has the axes of its observables as binning, in their order.", "quantifier": "all binned spaces and observables asked for", "why_tests_cant": "all spaces and requests", "anchors": ["zfit/core/space.py: Space.with_obs, Space.get_subspace"]}
{"id": "C215", "title": "Limits given incompletely or twice are refused", "statement": "If limits are given to Space on one side only, in two ways at once, or with too many positional arguments, there is an error; numbers are accepted whatever their type.", "quantifier": "all combinations of positional and keyword arguments of Space", "why_tests_cant": "all combinations of arguments", "anchors": ["zfit/core/space.py: Space.__init__, _legacy_get_arguments_space"]}
{"id": "C216", "title": "The curve drawn is the density", "statement": "pdf.plot.plotpdf of a PDF of one observable with limits draws num (300 by default) evenly spaced points from the lower to the upper limit, of the PDF or given; the height is the density, or the density times the yield if extended=True or by default if the PDF is extended, times scale. Without limits, with several observables to draw, with something else than axes, or with extended=True for a PDF that is not extended, there is an exception.", "quantifier": "all PDFs of one observable, limits, numbers of points, scales and choices of extended", "why_tests_cant": "all densities and all numbers of points", "anchors": ["zfit/util/plotter.py: plot_model_pdfV1"]}
{"id": "C217", "title": "The height of a curve does not depend on the range drawn", "statement": "Drawn over different ranges of an observable of the PDF, with the same options, a PDF has the same height wherever both curves have a point; observables the PDF does not have are refused.", "quantifier": "all PDFs, also of several observables, and all ranges", "why_tests_cant": "all densities and ranges", "anchors": ["zfit/util/plotter.py: plot_model_pdfV1", "zfit/core/basepdf.py: BasePDF.create_projection_pdf"]}
{"id": "C218", "title": "The components drawn add up to the sum", "statement": "The curves drawn by pdf.plot.comp.plotpdf for the parts of a SumPDF add up, at every point, to the curve drawn by pdf.plot.plotpdf for the sum with the same options.", "quantifier": "all sums of PDFs of one observable, by fractions or by yields, extended or not, all options", "why_tests_cant": "all densities, fractions and points", "anchors": ["zfit/util/plotter.py: SumCompPlotter, plot_sumpdf_components_pdfV1", "zfit/models/functor.py: SumPDF"]}
{"id": "C219", "title": "Options for plotting are used as given", "statement": "An option given to plotpdf is used; defaults of the plotter are used for options that are not given; the function given to the plotter draws. A curve has the label given, and otherwise that of its PDF; what the caller passes in is not changed.", "quantifier": "all plotters, defaults and options", "why_tests_cant": "all combinations of options and defaults", "anchors": ["zfit/util/plotter.py: PDFPlotter, SumCompPlotter, plot_model_pdfV1"]}
{"id": "C220", "title": "The Voigt profile is symmetric and scales", "statement": "The Voigt PDF has the same value at m + d and m - d, depends on x and m only by their distance, and stretching distance, sigma and gamma by a factor divides the value by it.", "quantifier": "all real points and parameters (factors other than zero)", "why_tests_cant": "all points and parameters", "anchors": ["zfit/models/basic.py: Voigt", "zfit/z/numpy.py: faddeeva_humlicek"]}
{"id": "C221", "title": "The Voigt profile is defined everywhere", "statement": "For sigma > 0 and gamma >= 0 the Voigt PDF divides by zero nowhere: the denominator of the approximation used at a point is not zero.", "quantifier": "all real points, m, sigma > 0, gamma >= 0", "why_tests_cant": "all points and parameters", "anchors": ["zfit/models/basic.py: Voigt", "zfit/z/numpy.py: faddeeva_humlicek"]}
{"id": "C222", "title": "The Voigt profile is positive", "statement": "For sigma > 0 and gamma >= 0 the value of the Voigt PDF is positive.", "quantifier": "all real points, m, sigma > 0, gamma >= 0", "why_tests_cant": "all points and parameters", "anchors": ["zfit/models/basic.py: Voigt", "zfit/z/numpy.py: faddeeva_humlicek"]}
{"id": "C223", "title": "The FFT estimate is the mean of the kernels on its grid", "statement": "The density of a KDE1DimFFT at a point of its grid is the weighted mean over the events of the kernel between that point and the event, each event being shared linearly between its two neighbouring grid points.", "quantifier": "all samples of at least two different events, weights, bandwidths, kernels and supports, with linear binning", "why_tests_cant": "all samples, kernels and bandwidths", "anchors": ["zfit/models/kde.py: KDE1DimFFT", "zfit/util/convolution.py: convolve_1d_data_with_kernel", "zfit/util/binning.py: generate_1d_grid, bin_1d"]}
{"id": "C224", "title": "The FFT estimate does not depend on the unit", "statement": "If the sample, the space and the bandwidth of a KDE1DimFFT are expressed in another unit, y -> a y + b, the density at a x + b is the density at x divided by a.", "quantifier": "all samples, weights, scale families of kernels, ways of binning and units", "why_tests_cant": "all samples and all units", "anchors": ["zfit/models/kde.py: KDE1DimFFT", "zfit/util/convolution.py: convolve_1d_data_with_kernel", "zfit/util/binning.py: generate_1d_grid, bin_1d"]}
{"id": "C225", "title": "The FFT estimate is a density of the size of its kernel", "statement": "With a kernel that is nowhere negative and weights that are not negative, the density of a KDE1DimFFT is nowhere negative and nowhere above the largest value of the kernel, at grid points, between them and beyond the grid.", "quantifier": "all samples of at least two different events, kernels, bandwidths, supports and points", "why_tests_cant": "all samples, kernels and points", "anchors": ["zfit/models/kde.py: KDE1DimFFT", "zfit/util/convolution.py: convolve_1d_data_with_kernel", "zfit/util/binning.py: generate_1d_grid, bin_1d"]}
{"id": "C226", "title": "Away from the sample the FFT estimate is zero", "statement": "With a kernel that vanishes beyond a distance r, the density of a KDE1DimFFT is zero at points that are further than r (and two steps of the grid) from all events.", "quantifier": "all samples, kernels of finite reach and points", "why_tests_cant": "all samples and points", "anchors": ["zfit/models/kde.py: KDE1DimFFT"]}
{"id": "C227", "title": "The choice of fft_method does not change the estimate", "statement": "A KDE1DimFFT has the same density for every fft_method.", "quantifier": "all samples, kernels, supports and methods", "why_tests_cant": "all samples and sizes of the grid", "anchors": ["zfit/util/convolution.py: convolve_1d_data_with_kernel"]}
{"id": "C228", "title": "The ISJ estimate is the smoothed sample", "statement": "The values of a KDE1DimISJ on its grid are the binned sample, continued by standing waves mirrored at the ends of the grid, smoothed with a Gaussian of positive width, divided by the range of the sample, and set to zero where this is negative; the grid covers the sample.", "quantifier": "all samples, weights, ways of binning, sizes of the grid and positive results of the search for the bandwidth", "why_tests_cant": "all samples and sizes of the grid", "anchors": ["zfit/models/kde.py: KDE1DimISJ", "zfit/util/improved_sheather_jones.py: _calculate_t_star, _calculate_density, calculate_bandwidth_and_density"]}
{"id": "C229", "title": "The ISJ bandwidth is the width of the smoothing", "statement": "The bandwidth that the improved Sheather-Jones algorithm reports, and that the option bandwidth='isj' uses, is the width of the Gaussian with which KDE1DimISJ smooths the sample.", "quantifier": "all samples of at least two different events", "why_tests_cant": "all samples", "anchors": ["zfit/util/improved_sheather_jones.py: calculate_bandwidth, calculate_bandwidth_and_density", "zfit/models/kde.py: bandwidth_isj"]}
{"id": "C230", "title": "The ISJ estimate does not depend on the unit", "statement": "If the sample is expressed in another unit, y -> a y + b, the bandwidth, the grid and the density of a KDE1DimISJ are those in that unit.", "quantifier": "all samples, weights, ways of binning, units and ways of searching for the root", "why_tests_cant": "all samples and units", "anchors": ["zfit/util/improved_sheather_jones.py: _calculate_t_star, calculate_bandwidth_and_density", "zfit/util/binning.py: generate_1d_grid, bin_1d"]}
{"id": "C231", "title": "Adaptive bandwidths follow the density of the weighted sample", "statement": "Adaptive bandwidths are, for each event or grid point, a common factor divided by the root of the density of the weighted sample there.", "quantifier": "all samples with and without weights, all adaptive rules, exact and grid KDEs", "why_tests_cant": "all samples and weights", "anchors": ["zfit/models/kde.py: adaptive_factory, bandwidth_adaptive_geomV1, bandwidth_adaptive_zfitV1, bandwidth_adaptive_stdV1"]}
{"id": "C232", "title": "A registered integral is called once and its errors reach the user", "statement": "When a PDF is integrated with a function registered by register_analytic_integral, the function is run once with the limits, norm, parameters and model that were asked for, and the value it returns or the exception it raises is the outcome.", "quantifier": "all registered functions, orders and kinds of arguments, limits, norms, parameters and outcomes", "why_tests_cant": "all functions a user may register", "anchors": ["zfit/core/integration.py: AnalyticIntegral.register, AnalyticIntegral.integrate, Integral", "zfit/core/baseobject.py, zfit/core/basemodel.py: register_analytic_integral"]}
{"id": "C233", "title": "A registered integral that supports norms gets the norm", "statement": "A function registered with supports_norm=True that has an argument for the norm gets the norm the integral was asked for.", "quantifier": "all registered functions, limits and norms", "why_tests_cant": "all functions a user may register and all norms", "anchors": ["zfit/core/integration.py: AnalyticIntegral.register, AnalyticIntegral.integrate, Integral", "zfit/core/baseobject.py, zfit/core/basemodel.py: register_analytic_integral"]}
{"id": "C234", "title": "A warning is given at most once", "statement": "The warning about an advanced feature, about a changed feature, about an experimental function and a warning asked for once is given at most once in a program, whatever is done and switched on and off in between.", "quantifier": "all histories of uses of features, settings and looks at settings, all identifiers", "why_tests_cant": "all histories", "anchors": ["zfit/util/warnings.py: warn_advanced_feature, warn_changed_feature, warn_once, warn_experimental_feature", "zfit/settings.py: advanced_warnings, changed_warnings"]}
{"id": "C235", "title": "A warning is switched off only by its setting", "statement": "The warning about an advanced or changed feature is given at the first use of the feature unless its setting or that for all warnings was last set to False, and is not given while one of them is.", "quantifier": "all histories of uses of features, settings and looks at settings, all identifiers", "why_tests_cant": "all histories", "anchors": ["zfit/util/warnings.py: warn_advanced_feature, warn_changed_feature, warn_once, warn_experimental_feature", "zfit/settings.py: advanced_warnings, changed_warnings"]}
{"id": "C236", "title": "The warning about functions removed from the cache is given once", "statement": "If a compiled function is removed from the full cache again and again, the user is warned once.", "quantifier": "all histories of removals", "why_tests_cant": "all histories of removals", "anchors": ["zfit/z/zextension.py: FunctionWrapperRegistry"]}
{"id": "C237", "title": "The number of CPUs is the one last asked for", "statement": "zfit.run.n_cpu is the number last given to set_n_cpu, or the number of available CPUs for \"auto\" and at the beginning, whatever else was set or computed.", "quantifier": "all histories of set_n_cpu, set_cpus_explicit and computations, all numbers, outside of aquire_cpu", "why_tests_cant": "all histories", "anchors": ["zfit/util/execution.py: RunManager.set_n_cpu, RunManager.n_cpu"]}
{"id": "C238", "title": "Asking for CPUs in vain changes nothing", "statement": "A call of set_n_cpu that raises leaves the number of CPUs and of threads as they were.", "quantifier": "all histories and all calls that raise", "why_tests_cant": "all histories", "anchors": ["zfit/util/execution.py: RunManager.set_n_cpu, RunManager.set_cpus_explicit"]}
{"id": "C239", "title": "The number of threads follows the number of CPUs", "statement": "After a call of set_n_cpu that does not raise, TensorFlow uses that number of threads between operations, and one thread within an operation exactly if the call was strict.", "quantifier": "all histories and all calls that do not raise", "why_tests_cant": "all histories", "anchors": ["zfit/util/execution.py: RunManager.set_n_cpu, RunManager.set_cpus_explicit"]}
{"id": "C240", "title": "The warning about a feature that will change is given once", "statement": "The warning about a feature that will change is given at most once for every identifier.", "quantifier": "all histories of uses of features, all identifiers", "why_tests_cant": "all histories", "anchors": ["zfit/util/warnings.py: warn_changing_feature"]}
{"id": "C241", "title": "create_new replaces what is given and keeps the rest", "statement": "create_new of a likelihood or chi2 gives a loss of the same class with the models, data, fit ranges, constraints and options that were given and with those of the loss otherwise, the constant found by an earlier evaluation included, whenever the constructor would accept them.", "quantifier": "all losses of the six classes, all states, all combinations of arguments", "why_tests_cant": "all losses and combinations of arguments", "anchors": ["zfit/core/loss.py: BaseUnbinnedNLL.create_new, BaseLoss.check_precompile, BaseLoss._check_init_options", "zfit/_loss/binnedloss.py: BaseBinned.create_new, BinnedChi2.__init__, ExtendedBinnedChi2.__init__"]}
{"id": "C242", "title": "Losses made from one another can be compared", "statement": "The values of a loss and of a loss made from it by create_new on the same data, with other models or constraints, differ by what the full values differ by, so that minima can be compared.", "quantifier": "all losses of the six classes, models, constraints, points and evaluations before", "why_tests_cant": "all models, data, points and histories", "anchors": ["zfit/core/loss.py: BaseUnbinnedNLL.create_new, BaseLoss.check_precompile, BaseLoss._check_init_options", "zfit/_loss/binnedloss.py: BaseBinned.create_new, BinnedChi2.__init__, ExtendedBinnedChi2.__init__"]}
{"id": "C243", "title": "create_new of a SimpleLoss replaces what is given and keeps the rest", "statement": "create_new of a SimpleLoss gives a SimpleLoss with the function, parameters and errordef that were given and with those of the loss otherwise; gradient, hessian and compilation are kept.", "quantifier": "all functions, with and without the attribute errordef, parameters, derivatives and arguments", "why_tests_cant": "all functions and combinations of arguments", "anchors": ["zfit/core/loss.py: SimpleLoss.create_new, SimpleLoss.__init__"]}
{"id": "C244", "title": "The options of a loss belong to it", "statement": "Whatever is done with dictionaries and losses, the options of a loss change only when that loss itself is evaluated: they are shared neither with the dictionary it was made with, nor with losses made with the same dictionary, nor with losses made from it by create_new.", "quantifier": "all histories of dictionaries, losses, create_new and evaluations", "why_tests_cant": "all histories", "anchors": ["zfit/core/loss.py: BaseUnbinnedNLL.create_new, BaseLoss.check_precompile, BaseLoss._check_init_options", "zfit/_loss/binnedloss.py: BaseBinned.create_new, BinnedChi2.__init__, ExtendedBinnedChi2.__init__"]}
{"id": "C245", "title": "Making and using losses leaves the user's options alone", "statement": "A dictionary that the user hands to losses as options is not changed by making or evaluating losses.", "quantifier": "all histories of dictionaries, losses, create_new and evaluations", "why_tests_cant": "all histories", "anchors": ["zfit/core/loss.py: BaseUnbinnedNLL.create_new, BaseLoss.check_precompile, BaseLoss._check_init_options", "zfit/_loss/binnedloss.py: BaseBinned.create_new, BinnedChi2.__init__, ExtendedBinnedChi2.__init__"]}
{"id": "C246", "title": "Options have the value given or else the default", "statement": "Each option of a new loss is the one given, in the dictionary or by the loss that create_new was called on (the constant found by an earlier evaluation included); an option not given, or given as None, has its default; other entries are kept.", "quantifier": "all histories of dictionaries, losses, create_new and evaluations, all options", "why_tests_cant": "all histories and dictionaries", "anchors": ["zfit/core/loss.py: BaseUnbinnedNLL.create_new, BaseLoss.check_precompile, BaseLoss._check_init_options", "zfit/_loss/binnedloss.py: BaseBinned.create_new, BinnedChi2.__init__, ExtendedBinnedChi2.__init__"]}
{"id": "C247", "title": "A function is converted by the converter of the highest priority that takes it", "statement": "SimpleLoss.from_any uses, of the converters registered by register_convertable_loss that take the function, the one with the highest priority, and of several with this priority the one that was registered first; without any, this is an error.", "quantifier": "all sequences of registrations, priorities, converters and functions", "why_tests_cant": "all sequences of registrations", "anchors": ["zfit/core/loss.py: SimpleLoss.from_any, SimpleLoss.register_convertable_loss, _simple_loss_constructor"]}
{"id": "C248", "title": "A function becomes a loss or is refused", "statement": "SimpleLoss.from_any, and with it minimize, makes a loss of what it is given or raises an error.", "quantifier": "all registered converters and functions", "why_tests_cant": "all converters and functions", "anchors": ["zfit/core/loss.py: SimpleLoss.from_any, SimpleLoss.register_convertable_loss, _simple_loss_constructor"]}
{"id": "C249", "title": "A PDF class is accepted exactly if its methods say what they support", "statement": "A class derived from BasePDF can be defined exactly if each of the methods _integrate, _analytic_integrate, _numeric_integrate, their partial versions, _sample, _normalization, _log_normalization, _pdf, _log_pdf, _ext_pdf and _ext_log_pdf that it or a base class or mixin overrides has @supports(...) as its outermost decorator; only _pdf may have no decorator, with a warning. Otherwise the definition fails with a subclassing error. The same holds for functions with their methods. A subclass that touches none of these methods is accepted if its parent is.", "quantifier": "every hierarchy of classes and mixins, every stack of decorators on every method", "why_tests_cant": "a test defines a few classes; the claim is about every hierarchy and stack of decorators", "anchors": ["zfit/core/basemodel.py:BaseModel.__init_subclass__", "zfit/core/basemodel.py:BaseModel._subclass_check_support", "zfit/core/basepdf.py:BasePDF.__init_subclass__"]}
{"id": "C250", "title": "A minimiser class is accepted exactly if _minimize says what it supports", "statement": "A class derived from BaseMinimizer can be defined exactly if the _minimize that it overrides, itself or by inheritance, has @minimize_supports(...) as its outermost decorator; otherwise the definition fails with a subclassing error.", "quantifier": "every hierarchy of classes and every stack of decorators", "why_tests_cant": "a test defines a few classes", "anchors": ["zfit/minimizers/baseminimizer.py:BaseMinimizer.__init_subclass__", "zfit/minimizers/baseminimizer.py:BaseMinimizer._subclass_check_support"]}
{"id": "C251", "title": "A binned PDF class is accepted exactly if its methods say what they support", "statement": "A class derived from BaseBinnedPDF can be defined exactly if each of the methods _pdf, _ext_pdf, _log_pdf, _ext_log_pdf, _normalization, _log_normalization, _integrate, _ext_integrate, _sample, _counts and _rel_counts that it overrides has @supports(...) as its outermost decorator.", "quantifier": "every hierarchy of classes and every stack of decorators", "why_tests_cant": "a test defines a few classes", "anchors": ["zfit/core/binnedpdf.py:BaseBinnedPDF._subclass_check_support"]}
{"id": "C252", "title": "A model with _PARAMS has exactly the parameters it lists", "statement": "A class derived from ZPDF can be defined exactly if it or its nearest base that says something about _PARAMS lists strings. An instance can be made exactly if the names differ and each is given as a keyword argument, obs is given and every other argument is one that PDFs know; its parameters are those of _PARAMS, in that order, with the values given under their names, and the other arguments are handed on. A parameter that is not given raises a ValueError.", "quantifier": "every list of names, every hierarchy and every set of keyword arguments", "why_tests_cant": "a test makes a few models", "anchors": ["zfit/core/basemodel.py:SimpleModelSubclassMixin", "zfit/models/special.py:ZPDF"]}
{"id": "C253", "title": "A minimiser gets a result to start from only if it says that it can use it", "statement": "A _minimize declared with init=True, or with init='same' for a result of a minimiser of exactly its own type, gets the result to start from. Declared with init=False, or 'same' for another type, it is run without the result, from the values of the parameters in it, whatever it would do with a result. Without a result the declaration does not matter. Any other true value of the flag gives a ValueError when there is a result.", "quantifier": "every minimising method, every result and all values of parameters", "why_tests_cant": "a test tries a few minimisers; the claim is about every method", "anchors": ["zfit/minimizers/baseminimizer.py:minimize_supports", "zfit/minimizers/baseminimizer.py:BaseMinimizer._call_minimize"]}
{"id": "C254", "title": "The result of a minimisation comes from that minimisation", "statement": "Every result that a minimiser returns comes from that minimisation: it is what the algorithm returned or what the strategy stored when it gave up on NaNs. A minimisation that fails in another way raises.", "quantifier": "every strategy, every sequence of minimisations with the same minimiser and every way in which each of them goes", "why_tests_cant": "the wrong result depends on an earlier minimisation or an exception of the loss", "anchors": ["zfit/minimizers/baseminimizer.py:BaseMinimizer._call_minimize", "zfit/minimizers/baseminimizer.py:BaseMinimizer.create_evaluator", "zfit/minimizers/strategy.py:ToyStrategyFail"]}
{"id": "C255", "title": "The limit on iterations is the one given", "statement": "The limit on iterations that a minimiser uses and reports is the number given, 3000 per parameter if none is given, or the value of the given function at the number of parameters.", "quantifier": "every limit, function and number of parameters, inside and outside of a minimisation", "why_tests_cant": "a test tries a few limits", "anchors": ["zfit/minimizers/baseminimizer.py:BaseMinimizer.get_maxiter", "zfit/minimizers/baseminimizer.py:BaseMinimizer.maxiter"]}
{"id": "C256", "title": "A Scipy minimiser can be subclassed and accepts the derivative methods added to it", "statement": "A Scipy minimiser can always be subclassed. A class accepts exactly the derivative methods that were added to it (everything if none were); adding methods to one class does not change what another accepts.", "quantifier": "every sequence of defining subclasses and adding methods", "why_tests_cant": "the outcome depends on the history of class definitions", "anchors": ["zfit/minimizers/minimizers_scipy.py:ScipyBaseMinimizer._add_derivative_methods", "zfit/minimizers/minimizers_scipy.py:ScipyBaseMinimizer.__init_subclass__"]}
{"id": "C257", "title": "Numeric integrals over one observable are exact for cubic polynomials", "statement": "The numeric integral of a model over one observable is the exact integral for every polynomial of at most third degree, over limits with any number of pieces, for every number of points set in the integration options and with or without the option for bins.", "quantifier": "all polynomials of degree up to three, limits, options", "why_tests_cant": "all coefficients, limits and options", "anchors": ["zfit/core/basemodel.py: _auto_numeric_integrate", "zfit/core/integration.py: auto_integrate, simpson_integrate"]}
{"id": "C258", "title": "Numeric integrals lie between the bounds of the function times the volume", "statement": "For a function with values between two bounds within the limits, the numeric integral is between these bounds times the volume of the limits (so the integral of a constant is exact): for any number of observables and pieces, full and partial integrals, with Simpson, Monte Carlo, in chunks or for bins, for all options with at least one draw.", "quantifier": "all functions, bounds, limits, options, chunk sizes, sequences of points in the unit cube", "why_tests_cant": "all functions and all branches", "anchors": ["zfit/core/basemodel.py: _auto_numeric_integrate", "zfit/core/integration.py: auto_integrate, mc_integrate, normalization_nograd, simpson_integrate"]}
{"id": "C259", "title": "The number of evaluations in a numeric integral is bounded by the options", "statement": "A full numeric integral evaluates the function at no more than draws_simpson (at least 10) plus two points for each piece with one observable, else at no more than max_draws plus two batches of (at least 10) draws_per_dim times the number of observables for each piece, whatever the function and the estimated errors are.", "quantifier": "all functions, estimates of errors, limits, options, chunk sizes", "why_tests_cant": "all functions and estimates", "anchors": ["zfit/core/basemodel.py: _auto_numeric_integrate", "zfit/core/integration.py: auto_integrate, mc_integrate"]}
{"id": "C260", "title": "The integration options of a model hold for its partial integrals", "statement": "The options set with update_integration_options (max_draws, draws_per_dim, mc_sampler) also decide at which and at how many points the function is evaluated in partial integrals.", "quantifier": "all models, options, events", "why_tests_cant": "all options and functions", "anchors": ["zfit/core/basemodel.py: _fallback_partial_numeric_integrate, _auto_numeric_integrate", "zfit/core/integration.py: mc_integrate"]}
{"id": "C261", "title": "The Poisson term of an extended likelihood is the Poisson probability", "statement": "Evaluated with all constants, an extended likelihood adds for each dataset of n events the negative logarithm of the Poisson probability of n for the yield, exactly for no or one event and else too low by at most 1/(12 n); without the constants the difference does not depend on the yield.", "quantifier": "all numbers of events, all positive yields, any number of datasets", "why_tests_cant": "all numbers of events; the bound is analytic", "anchors": ["zfit/core/loss.py: ExtendedUnbinnedNLL._loss_func", "tf.nn.log_poisson_loss (external, as documented)"]}
{"id": "C262", "title": "The gradient of a Monte Carlo integral is the derivative", "statement": "Without chunks, where the numbers of points that are drawn do not change with the parameter nearby, the automatic gradient of any differentiable function of a Monte Carlo integral (for example of the logarithm of a normalisation) is the derivative of this function of the integral that is returned.", "quantifier": "all integrands with a derivative at every point, all boxes and numbers of pieces, all options, every function of the integral", "why_tests_cant": "for every integrand, function and way of drawing; a test compares a few numbers within a tolerance", "anchors": ["zfit/core/integration.py: mc_integrate, normalization_nograd"]}
{"id": "C263", "title": "Chunking does not change the gradient", "statement": "The gradient of a function of a Monte Carlo integral is the derivative also if the points are evaluated in chunks (zfit.run.chunking).", "quantifier": "all integrands with a derivative at every point, all boxes, numbers of pieces and sizes of chunks, every function of the integral", "why_tests_cant": "for every integrand, function and chunk size", "anchors": ["zfit/core/integration.py: mc_integrate, normalization_nograd", "zfit/core/integration.py: normalization_chunked"]}
{"id": "C264", "title": "The automatic gradient is the derivative at the values of the parameters", "statement": "Whenever autodiff_value_gradient returns, the value is that of the function and the gradient consists of its partial derivatives, in the order of the parameters, at the values of the parameters; these lie within the limits, also where a variable lies beyond them and the value is clipped.", "quantifier": "all functions composed of parameters, constants, sums, products, exponentials, logarithms, inverses and cached PDFs, at all values where they are smooth; all lists of parameters, all limits", "why_tests_cant": "for every function, parameter list and value", "anchors": ["zfit/z/math.py: autodiff_gradient, autodiff_value_gradient", "zfit/core/parameter.py: Parameter.value"]}
{"id": "C265", "title": "A smooth function has an automatic gradient", "statement": "autodiff_gradient returns for every function that is smooth in the parameters and uses no cached PDF that depends on them, with zero for a parameter that it does not depend on; with such a cached PDF it raises instead of giving a wrong gradient.", "quantifier": "all functions as in C264, all lists of parameters", "why_tests_cant": "for every function and parameter list", "anchors": ["zfit/z/math.py: autodiff_gradient, autodiff_value_gradient", "zfit/models/cache.py: get_value"]}
{"id": "C266", "title": "The automatic Hessian is the symmetric matrix of second derivatives", "statement": "Whenever automatic_value_gradient_hessian returns, value and gradient are those of autodiff_value_gradient, the entries of the matrix are the second partial derivatives at the values of the parameters, the matrix is symmetric, and with hessian=\"diag\" its diagonal is returned.", "quantifier": "all functions as in C264, at all values where they are smooth; all lists of parameters", "why_tests_cant": "for every function; symmetry of mixed derivatives is a theorem of analysis", "anchors": ["zfit/z/math.py: autodiff_hessian, automatic_value_gradient_hessian"]}
{"id": "C267", "title": "Where there is a gradient there is a Hessian", "statement": "If autodiff_gradient returns for a smooth function, autodiff_hessian returns too, for the full matrix and for the diagonal, with zeros where the second derivatives vanish.", "quantifier": "all functions as in C264, all lists of parameters", "why_tests_cant": "for every function and parameter list", "anchors": ["zfit/z/math.py: autodiff_hessian, automatic_value_gradient_hessian"]}
{"id": "C268", "title": "Samples with a known maximum follow the pdf", "statement": "If the maximum given to accept_reject_sample covers the pdf on limits in one piece, sampling ends with probability one with as many events as asked for, and these are independent of each other, the probability of each to lie in a region being the share of the region in the integral of the pdf.", "quantifier": "all pdfs that are measurable, not negative and not zero everywhere, all measures and densities of the proposals, all numbers of events, all regions, independent proposals and uniform thresholds", "why_tests_cant": "a statement about probabilities over infinitely many random numbers; a test compares histograms within statistical errors", "anchors": ["zfit/core/sample.py: accept_reject_sample, UniformSampleAndWeights"]}
{"id": "C269", "title": "Every proposal is accepted with a probability proportional to the pdf", "statement": "In any pass of the default sampling, after any history, the scaling depends on the proposals but not on the thresholds, covers the pdf at all proposals, and the proposals are accepted independently, each with the probability pdf / (scaling * weight).", "quantifier": "all pdfs, all states before the pass, all lists of distinct proposals with comparable weights, uniform thresholds", "why_tests_cant": "a statement about probabilities, after any history", "anchors": ["zfit/core/sample.py: accept_reject_sample, UniformSampleAndWeights", "zfit/core/basemodel.py: _fallback_sample"]}
{"id": "C270", "title": "Samples follow the pdf by default", "statement": "Without a given maximum the events that sample() returns on limits in one piece are independent of each other, each distributed like the pdf.", "quantifier": "all pdfs that are measurable, not negative and not zero everywhere, all numbers of events, all regions", "why_tests_cant": "a statement about probabilities for every pdf, among them those with narrow peaks", "anchors": ["zfit/core/sample.py: accept_reject_sample, UniformSampleAndWeights", "zfit/core/basemodel.py: _fallback_sample"]}
{"id": "C271", "title": "with_weights replaces the weights and nothing else", "statement": "Data.with_weights(weights) gives data with the same space and events and the new weights, also in all views of the result (with_obs), exactly if there is one weight for each event inside the limits; otherwise it raises a ValueError. None removes the weights.", "quantifier": "all data created from an array, with or without limits and weights; all weights; all chains of views", "why_tests_cant": "all data, weights and views", "anchors": ["zfit/core/data.py: Data.with_weights, copy"]}
{"id": "C272", "title": "set_weights until the end of the block", "statement": "Data.set_weights(weights) changes the weights and not the events and refuses a wrong number of weights; as a context manager it gives back the weights from before, however the block ends.", "quantifier": "all data created from an array, all weights, all blocks", "why_tests_cant": "all data and blocks, whatever happens in them", "anchors": ["zfit/core/data.py: Data.set_weights", "zfit/util/temporary.py: TemporarilySet"]}
{"id": "C273", "title": "Proposals are spread over the pieces by volume", "statement": "Of the proposals of one accept-reject pass on limits with several pieces, each piece gets its share in the total volume up to rounding, and the proposals within a piece are uniform over it.", "quantifier": "all limits with pieces of any number of dimensions, all numbers of proposals", "why_tests_cant": "all limits and numbers of proposals; a law, not a value", "anchors": ["zfit/core/sample.py: UniformSampleAndWeights"]}
{"id": "C274", "title": "Samples on limits in several pieces follow the pdf", "statement": "If the limits have several pieces, the expected number of accepted events in any region is proportional to the integral of the pdf over it, whatever the sizes of the pieces.", "quantifier": "all pdfs bounded by the scaling, all limits, all regions", "why_tests_cant": "a law over all random numbers, for all pdfs and limits", "anchors": ["zfit/core/sample.py: UniformSampleAndWeights, accept_reject_sample"]}
{"id": "C275", "title": "Samples on several limits follow the pdf", "statement": "If a PDF can only sample one piece of the limits at a time, sampling n events on several disjoint pieces gives n independent events that follow the PDF over all pieces together, up to their order.", "quantifier": "all PDFs, all numbers of pieces and events, all properties of a sample that do not depend on the order of the events", "why_tests_cant": "a law over all random numbers, for all pdfs and limits", "anchors": ["zfit/core/basemodel.py: BaseModel._limits_sample", "zfit/z/random.py: counts_multinomial"]}
{"id": "C276", "title": "Samples of wrapped distributions follow the distribution", "statement": "A sample of a PDF that wraps a library distribution with a quantile (Gauss, Uniform, Cauchy, ...) consists of independent events that follow the distribution restricted to the limits; with several intervals up to their order.", "quantifier": "all continuous distributions, all limits with a positive probability, all numbers of events, all measurable properties of the sample", "why_tests_cant": "a law over all random numbers, for all distributions and limits", "anchors": ["zfit/models/dist_tfp.py: tfd_analytic_sample, WrapDistribution", "zfit/core/basemodel.py: BaseModel._limits_sample"]}
{"id": "C277", "title": "Sampling with a registered inverse integral", "statement": "For a PDF of one observable with an analytic integral from minus infinity and a registered inverse of it (register_inverse_analytic_integral), sample(n, limits) gives n independent events that follow the PDF within the limits; where this way is not possible (several limits, no integral), accept-reject is used.", "quantifier": "all PDFs of one observable with a registered inverse, normalised or not; all limits with a positive integral; all numbers of events", "why_tests_cant": "a law over all random numbers, for all pdfs and limits", "anchors": ["zfit/core/basemodel.py: BaseModel._analytic_sample, _inverse_analytic_integrate, _call_sample"]}
{"id": "C278", "title": "Which way of sampling is taken", "statement": "A PDF's own _sample is used whenever it is implemented, then analytic sampling, and accept-reject only if neither is implemented; other exceptions reach the caller.", "quantifier": "all outcomes of the three ways", "why_tests_cant": "all combinations of outcomes, including exceptions", "anchors": ["zfit/core/basemodel.py: BaseModel._call_sample"]}
{"id": "C279", "title": "Counts of a binned PDF at given bins", "statement": "counts(x) and rel_counts(x) of a binned PDF, for a binned space or binned data x, give in each bin of x what the PDF predicts for that bin, in the order of the observables of x; for unbinned data each event gets the content of the bin it is in, and zero outside.", "quantifier": "all binned PDFs, all orders of observables, all binnings of x, all events", "why_tests_cant": "all binnings and orders of axes", "anchors": ["zfit/core/binnedpdf.py: BaseBinnedPDF.counts, rel_counts, _call_counts", "zfit/core/binning.py: unbinned_to_binindex"]}
{"id": "C280", "title": "Binned losses compare like with like", "statement": "A binned likelihood or chi2 compares the observed content of each bin of the data with the prediction of the PDF for that same bin, each exactly once; data whose bins are not those of the PDF is refused.", "quantifier": "all binned PDFs and binned data, all numbers and orders of observables, all edges", "why_tests_cant": "all pairs of binnings", "anchors": ["zfit/_loss/binnedloss.py: BinnedNLL, ExtendedBinnedNLL, BinnedChi2, ExtendedBinnedChi2"]}
{"id": "C281", "title": "Law of binned samples", "statement": "sample(n) of a binned PDF gives binned data in the bins of the PDF, with contents that follow the multinomial distribution of n events with the relative counts as probabilities; without n, for an extended PDF, the contents are independent Poisson numbers with means yield times relative count; without n and not extended it raises a ValueError.", "quantifier": "all binned PDFs with non-negative relative counts, not all zero; all numbers of observables and bins; all n and yields", "why_tests_cant": "a law over all random numbers, for all PDFs", "anchors": ["zfit/core/binnedpdf.py: BaseBinnedPDF.sample, _fallback_sample", "zfit/z/random.py: counts_multinomial"]}
{"id": "C282", "title": "Binned samples at given parameters", "statement": "sample(n, params=values) of a binned PDF has the same law as sample(n) with the parameters set to these values.", "quantifier": "all binned PDFs, extended or not; all values; n given or not", "why_tests_cant": "two laws over all random numbers, for all parameter values", "anchors": ["zfit/core/binnedpdf.py: BaseBinnedPDF.sample"]}
{"id": "C283", "title": "Binned samples in given limits", "statement": "sample(n, limits) of a binned PDF gives data with the bins of the limits, contents distributed by what the PDF predicts for these bins, or refuses: limits that are not those of the PDF are refused.", "quantifier": "all binned PDFs, all limits: other ranges, other observables, other orders, other binnings", "why_tests_cant": "all limits and binnings", "anchors": ["zfit/core/binnedpdf.py: BaseBinnedPDF.sample, _fallback_sample, _check_convert_limits", "zfit/core/space.py: Space.__eq__"]}
{"id": "C284", "title": "The norm given to a PDF", "statement": "The norm of a PDF has the observables of the PDF in its order. Without norm it is the space of the PDF. Limits given as numbers are taken in the order of these observables, and accepted if and only if there is a lower and an upper one for each and the lower one is smaller. A space gives each observable its limits by name, whatever its order, and is accepted if and only if it has the same observables. With False there is no normalisation.", "quantifier": "all PDFs with rectangular spaces, all numbers of observables, all limits and all orders of observables", "why_tests_cant": "all orders, limits and numbers of observables", "anchors": ["zfit/core/basepdf.py: BasePDF._check_init_norm, norm", "zfit/core/basemodel.py: BaseModel._check_set_space", "zfit/core/space.py: Space.with_coords"]}
{"id": "C285", "title": "A norm in a call is the norm of the PDF", "statement": "pdf, integrate or log_pdf called with norm=n normalise over the same range as a PDF created with norm=n and called without norm, whatever norm the PDF was created with; both accept the same n. limits of integrate and sample give each observable its limits by name.", "quantifier": "all PDFs with rectangular spaces, all norms at creation and in the call", "why_tests_cant": "all pairs of norms, orders and limits", "anchors": ["zfit/core/basepdf.py: BasePDF._check_input_norm, _check_init_norm", "zfit/core/basemodel.py: BaseModel._check_input_norm, _check_input_limits, _convert_sort_space", "zfit/core/space.py: convert_to_space"]}
{"id": "C286", "title": "to_truncated is TruncatedPDF", "statement": "pdf.to_truncated(limits, obs, norm) is the PDF that TruncatedPDF(pdf, limits, obs, norm) gives, with the space as limits if none are given; with defaults it is the PDF inside its space and zero outside, with integral one.", "quantifier": "all densities of one observable, all spaces, norms and lists of limits", "why_tests_cant": "all densities and limits", "anchors": ["zfit/core/basepdf.py: BasePDF.to_truncated", "zfit/models/truncated.py: TruncatedPDF"]}
{"id": "C287", "title": "Equality of unions of limits", "statement": "Two spaces with several pieces (or one such space and a single space) are equal if and only if they have the same observables and the same pieces, each piece equal to one of the other as a space, whatever the order of the pieces and of the observables and the nesting of additions. Comparing always gives an answer, the answer is symmetric, and equal unions have equal hashes and volumes (within the tolerance).", "quantifier": "all unions of rectangular spaces, all numbers of pieces and observables, all orders", "why_tests_cant": "all unions, orders and limits", "anchors": ["zfit/core/space.py: MultiSpace.__eq__, __hash__, equal_space, compare_multispace, compare_limits_multispace, compare_limits_coords_dict, compare_limits_dict, equal_limits", "zfit/z/unstable.py: allclose_anyaware"]}
{"id": "C288", "title": "safe_where takes one branch and keeps its gradient clean", "statement": "z.safe_where(condition, func, safe_func, values) gives func(value) where the condition holds and safe_func(value) elsewhere, whatever the replacement values are. If the derivative of safe_func is finite at all values, the gradient is that of the branch taken, even where func or its derivative is NaN or infinite at the values of the other branch (for another replacement than ones: if the derivative of func is finite at the replacement values and that of the replacement is finite); a plain where gives NaN there.", "quantifier": "all elementwise functions and derivatives with values that need not be finite, all conditions, values and upstream gradients", "why_tests_cant": "all functions, conditions and places where a branch is not finite", "anchors": ["zfit/z/zextension.py: safe_where"]}
{"id": "C289", "title": "run_no_nan replaces what is not finite by zero", "statement": "z.run_no_nan(func, x) returns one value per event: zero for the events for which func(x) is not finite, and for the others the value of func called with exactly these events in their order. For a function that looks at each event alone this is its value where finite and zero elsewhere, so nothing in the result is NaN or infinite.", "quantifier": "all functions of events, all datasets", "why_tests_cant": "all functions and all patterns of finite values", "anchors": ["zfit/z/zextension.py: run_no_nan"]}
{"id": "C290", "title": "Powers and complex polynomials", "statement": "z.nth_pow(x, n) is the n-th power of x for every n >= 0 and an error for negative n. z.math.poly_complex(c0, ..., ck, x) is the polynomial with these coefficients in rising order at x, for every value of real_x; without coefficients it is an error.", "quantifier": "all numbers, exponents and lists of coefficients", "why_tests_cant": "all exponents and degrees", "anchors": ["zfit/z/zextension.py: nth_pow", "zfit/z/math.py: poly_complex"]}
{"id": "C291", "title": "Sampling with replacement from a tensor", "statement": "sample_with_replacement(a, axis, sample_shape) has the shape a.shape[:axis] + sample_shape + a.shape[axis+1:]; the part at each position of the sample is the part of a at the entry drawn for this position and for no other, with the other axes unchanged. Negative axes count from the end; empty or missing axes are errors.", "quantifier": "all tensors of any rank, axes, sample shapes and draws", "why_tests_cant": "all shapes and draws", "anchors": ["zfit/z/random.py: sample_with_replacement"]}
{"id": "C292", "title": "Which bandwidth a KDE uses", "statement": "In GaussianKDE1DimV1, KDE1DimExact, KDE1DimGrid and KDE1DimFFT, bandwidth=None means Silverman's rule; a documented name means its rule applied to the data and weights after the padding, other names are errors; a number, a parameter (not for FFT) or the value of a callable is used as it is; an array with one bandwidth per event is used for the kernels of these events, also with padding. The parameter \"bandwidth\" of the KDE is the bandwidth used.", "quantifier": "all data, weights, paddings, grids, rules and bandwidths of every kind", "why_tests_cant": "all kinds of bandwidths, paddings and data", "anchors": ["zfit/models/kde.py: KDEHelper._convert_input_bandwidth, bw_is_arraylike, check_bw_grid_shapes, GaussianKDE1DimV1.__init__, KDE1DimExact.__init__, KDE1DimGrid.__init__, KDE1DimFFT.__init__"]}
{"id": "C293", "title": "Labels stay with their observables", "statement": "A space made with label=... has one label per observable, and after any number of reorderings, selections of observables or axes, changes of axes or of limits every observable of the result has the label it was given; without label= it is the name of the observable. Labels have no effect on anything else: all these operations have the same result, or raise the same error, whatever the labels. Taking the observables away (with_obs(None)) takes the labels away, and new observables get their names.", "quantifier": "all spaces with rectangular, no or False limits, all labels, all finite sequences of with_obs, with_axes, with_coords, with_autofill_axes, get_subspace and with_limits", "why_tests_cant": "all sequences of operations and all orders of observables", "anchors": ["zfit/core/space.py: Space.__init__, Space.labels, Space.with_obs, Space.with_axes, Space.with_coords, Space.with_autofill_axes, Space.get_subspace, Space.with_limits, Space.copy"]}
{"id": "C294", "title": "Labels in products and unions of spaces", "statement": "If spaces are combined, as product or as union, an observable of the result has the label that a user gave it in one of the spaces; labels never decide whether spaces can be combined.", "quantifier": "all lists of spaces, with observables or axes, with and without labels", "why_tests_cant": "all lists of spaces and labels", "anchors": ["zfit/core/space.py: combine_spaces, add_spaces, MultiSpace.__init__, MultiSpace.labels, MultiSpace.label"]}
{"id": "C295", "title": "The improved Sheather-Jones bandwidth solves the equation of Botev et al.", "statement": "With the grid as the unit interval, the time t whose square root, in units of the range, is the ISJ bandwidth, is a solution of t = (2 N sqrt(pi) ||f''||^2)^(-2/5), where ||f''||^2 comes in five steps t_s = ((1 + 2^(-s-1/2))/3 * (1*3*...*(2s-1)) / (N sqrt(pi/2) ||f^(s+1)||^2))^(2/(3+2s)) from ||f^(7)||^2 at the time t, and ||f^(s)||^2 is the integral over the grid of the squared s-th derivative of the binned sample smoothed by the heat equation up to that time. (Which root is found is C76, the range is C229.)", "quantifier": "all samples on all grids, all sizes N, all times", "why_tests_cant": "a statement about integrals of derivatives for all samples", "anchors": ["zfit/util/improved_sheather_jones.py: calc_f, _fixed_point, _calculate_t_star, calculate_bandwidth"]}
{"id": "C296", "title": "set_value in double precision", "statement": "In double precision, for a parameter with limits, set_value(v) accepts every v with lower <= v <= upper, the limits included, and value() is then exactly v; it refuses NaN, infinite values and every v that is beyond a limit by more than 1.1e-7. This is so in eager and in graph mode.", "quantifier": "all roundings to the nearest number of 53 bits, all limits (finite or absent) and all values including NaN and infinities", "why_tests_cant": "all floating point numbers as limits and values; tests use small limits", "anchors": ["zfit/core/parameter.py: Parameter.set_value, Parameter._check_at_limit, Parameter.value, Parameter.__init__"]}
{"id": "C297", "title": "assign clips to the limits in double precision", "statement": "After assign(v), value() of a parameter with limits is v clipped to the limits (as the message of set_value promises), for every number v in double precision, infinite ones included.", "quantifier": "all roundings to the nearest number of 53 bits, all limits and values", "why_tests_cant": "all floating point numbers; the error appears only for values far from the limits", "anchors": ["zfit/core/parameter.py: Parameter.assign, Parameter.value"]}
{"id": "C298", "title": "Data that is saved and loaded is the same data", "statement": "For every Data object, saving it (to_dict, to_asdf) and loading the result (from_dict, from_asdf) gives data with the same observables and limits, the same events in the same order with the same weights, and the same name and label.", "quantifier": "all data: any number of observables and events, with and without weights, all limits, data created with or without guarantee_limits", "why_tests_cant": "tests save four datasets, all with rectangular limits and all events inside", "anchors": ["zfit/core/data.py: DataRepr, Data.__init__", "zfit/serialization/spacerepr.py: SpaceRepr", "zfit/core/serialmixin.py: SerializableMixin.to_dict, from_dict, to_asdf, from_asdf"]}
{"id": "C299", "title": "A Gaussian constraint that is saved and loaded is the same constraint", "statement": "Every Gaussian constraint can be saved, however its observation, sigma, cov or uncertainty were given, and the loaded constraint has the same parameters, observation, covariance and value.", "quantifier": "all Gaussian constraints: any number of parameters, numbers given as scalar, list, array, list of lists or matrix", "why_tests_cant": "tests save one constraint whose uncertainty is a list of numbers", "anchors": ["zfit/core/constraint.py: GaussianConstraint, GaussianConstraintRepr"]}
{"id": "C300", "title": "A likelihood that is saved and loaded has the same value", "statement": "For every UnbinnedNLL, saving and loading it gives a likelihood with the same value for all values of the parameters and the same options.", "quantifier": "all likelihoods of any number of PDFs (sums of sums included), data, fit ranges, constraints and options", "why_tests_cant": "tests compare one likelihood per PDF, without fit range and options", "anchors": ["zfit/core/loss.py: BaseLossRepr, UnbinnedNLLRepr, _unbinned_nll_tf"]}
{"id": "C301", "title": "The grouping and order of a sum make no difference", "statement": "Sums of PDFs can be nested: SumPDFs of the same PDFs with the same overall fractions, grouped and ordered in any way, have the same density; without fractions, for extended PDFs, also the same yield, the same extended density and, for positive yields, the same density.", "quantifier": "all formulas of SumPDFs of any depth and size over the same observables and norm, given fractions, one fraction less than PDFs or yields, and all points", "why_tests_cant": "tests nest two sums once, with fixed fractions", "anchors": ["zfit/models/functor.py: SumPDF", "zfit/models/basefunctor.py: _preprocess_init_sum"]}
{"id": "C302", "title": "The grouping and order of a product make no difference", "statement": "Products of PDFs can be nested: ProductPDFs of the same PDFs, grouped and ordered in any way, have the same observables up to their order, the same value for every event and the same integrals.", "quantifier": "all formulas of ProductPDFs of any depth and size, observables shared or not, and all data", "why_tests_cant": "tests nest two products once", "anchors": ["zfit/models/functor.py: ProductPDF, BaseFunctor", "zfit/models/basefunctor.py: extract_daughter_input_obs"]}
{"id": "C303", "title": "The density of a conditional PDF is that of the wrapped PDF with the parameters of the event", "statement": "For data with the observables of the wrapped PDF and of all conditions, in any order and possibly with others, the density of a ConditionalPDF at an event is that of the wrapped PDF at the event's values of its own observables, with every parameter that has a condition at the event's value of the observable it was given with, and all other parameters as they are.", "quantifier": "all conditional PDFs of any number of observables and conditions, all data, parameter values and limits", "why_tests_cant": "tests use one condition, with the columns in the order of the PDF", "anchors": ["zfit/models/conditional.py: ConditionalPDFV1._pdf", "zfit/core/basemodel.py: _convert_sort_x"]}
{"id": "C304", "title": "Integrals and samples of a conditional PDF are per event of the given data", "statement": "integrate of a ConditionalPDF gives for every event of the data given as var the integral of the wrapped PDF with the parameters of that event; sample gives for every event of the data given as x one event drawn from the wrapped PDF with the parameters of that event, next to the values of the event.", "quantifier": "all conditional PDFs, all data, limits, parameter values and random numbers", "why_tests_cant": "tests draw with one condition of a one-dimensional PDF", "anchors": ["zfit/models/conditional.py: ConditionalPDFV1._single_hook_integrate, ConditionalPDFV1._single_hook_sample", "zfit/core/basemodel.py: BaseModel.sample, BaseModel.integrate"]}
{"id": "C305", "title": "The unit of an observable makes no difference to a density", "statement": "If an observable is given in another unit (every value x becomes a*x + b with a > 0), with the limits and the positions and widths among the parameters converted accordingly, the density is divided by a and the fraction inside any limits is the same: for CrystalBall, DoubleCB, GeneralizedCB, GaussExpTail, GeneralizedGaussExpTail, Voigt, the polynomial PDFs with scaling, Bernstein, Exponential and the wrapped distributions with a position and a width (Gauss, Uniform, TruncatedGauss, Cauchy, StudentT, QGauss, BifurGauss, Gamma, JohnsonSU, GeneralizedGauss; LogNormal for a factor).", "quantifier": "all values of the parameters, coefficients and limits, all factors and shifts of the unit, all points", "why_tests_cant": "tests use values of order one in one unit", "anchors": ["zfit/models/physics.py", "zfit/models/polynomials.py", "zfit/models/basic.py: Exponential, Voigt", "zfit/models/dist_tfp.py"]}
{"id": "C306", "title": "The unit of an observable makes no difference to a fit", "statement": "The difference of an unbinned likelihood between any two points in the space of the parameters does not depend on the unit of the observables.", "quantifier": "all models whose density is divided by the factor between the units, all data, weights, fit ranges, constraints, options and points", "why_tests_cant": "tests fit data in one unit", "anchors": ["zfit/core/loss.py: _unbinned_nll_tf, UnbinnedNLL", "zfit/core/basepdf.py: _call_log_pdf"]}
{"id": "C307", "title": "The observables and limits given to concat", "statement": "The obs argument of concat has the same function as on a single Data, along the index and along the observables: it gives the order of the columns and, if it has limits, removes the events outside; names alone leave the limits of the data; observables other than those of the datasets are refused.", "quantifier": "all datasets, with and without weights and limits, all observables and spaces given", "why_tests_cant": "tests join a few arrays without limits", "anchors": ["zfit/core/data.py: concat, concat_data_index, concat_data_obs"]}
{"id": "C308", "title": "The table printed for a result", "statement": "Printing the parameters of a result gives one row for each parameter in their order, with its value and every uncertainty that has been computed under the heading of its name, blank where it has not been computed, each side of an error with its sign and size, and whether the fit ended at a limit of the parameter.", "quantifier": "all results, also frozen ones, with any parameters and names of errors; every later change of the parameters", "why_tests_cant": "tests print a result once and do not read the table", "anchors": ["zfit/minimizers/fitresult.py: ParamHolder.__str__, format_value"]}
{"id": "C309", "title": "The likelihood in terms of the arrays given", "statement": "The value of a likelihood built from arrays is minus the sum, over the events that lie in the space of their data and in the fit range, of the weight times the logarithm of the density at the values of the observables of the PDF, plus the constraints; for an extended likelihood plus the Poisson term of the sum of the weights inside the space. Neither the order of the columns nor other columns matter.", "quantifier": "all numbers of PDFs and arrays, all orders of columns, all spaces with one or several limits, weights, fit ranges and constraints", "why_tests_cant": "a test compares a few values of a likelihood, usually in one dimension and with all events inside the limits", "anchors": ["zfit/core/loss.py: _unbinned_nll_tf, _nll_calc_unbinned_tf, UnbinnedNLL, ExtendedUnbinnedNLL", "zfit/core/basemodel.py: _convert_sort_x", "zfit/core/data.py: Data.from_tensor, Data.with_obs"]}
{"id": "C310", "title": "Comparing spaces with <=", "statement": "One space is <= another exactly if it is contained in it: every point inside the first is inside the second, for spaces and unions of spaces, in any order of the observables. Every space is <= itself, and the comparison is transitive.", "quantifier": "all spaces and unions of spaces over any observables with any limits", "why_tests_cant": "tests compare a few intervals, mostly equal ones or such that begin at the same point", "anchors": ["zfit/core/space.py: BaseSpace.__le__, MultiSpace.__le__, less_equal_limits, less_equal_space, compare_multispace"]}
{"id": "C311", "title": "The choice of the parameters makes no difference to convergence and errors", "statement": "If a loss is written in terms of other parameters of which the first are an invertible linear function (another unit, a sum and a difference), then at corresponding points the convergence criterion EDM has the same value and gives the same verdict, and the covariance of the parameters is that of the other parameters transformed like the parameters, by every method and with every correction for weights; in particular the error of a parameter in another unit is the error times the factor between the units.", "quantifier": "all twice differentiable losses of any number of parameters, all invertible linear changes of the parameters, all points, methods and weights", "why_tests_cant": "tests fit a few models in one parametrisation each", "anchors": ["zfit/minimizers/termination.py: EDM, calculate_edm, calculate_edm_hesse", "zfit/minimizers/fitresult.py: FitResult.covariance, FitResult.hesse", "zfit/minimizers/errors.py: covariance_with_weights"]}
{"id": "C312", "title": "The unit of an observable makes no difference to a binned fit", "statement": "If every observable is replaced by a strictly increasing function of it (another unit, a logarithm) in the events, in the edges of the bins and in the model, then binning the events gives the same contents and variances, binning the model gives the same relative counts, counts and yield for corresponding norms, and every binned loss has the same value, or the same error is raised.", "quantifier": "all events and weights, all bins in any number of observables (data with the observables in the order of the bins), all strictly increasing functions, all models, norms and kinds of binned losses", "why_tests_cant": "tests use one unit for each model", "anchors": ["zfit/core/binning.py: unbinned_to_binned", "zfit/models/tobinned.py: BinnedFromUnbinnedPDF", "zfit/_loss/binnedloss.py: BinnedNLL, ExtendedBinnedNLL, BinnedChi2, ExtendedBinnedChi2"]}
{"id": "C313", "title": "The environment variables at import", "statement": "import zfit starts in eager mode if ZFIT_GRAPH_MODE is zero, or, without it, one of its deprecated names ZFIT_MODE_GRAPH, ZFIT_DO_JIT, ZFIT_EXPERIMENTAL_DO_JIT, and otherwise in the default mode; a text that is no integer is a ValueError. The deprecated variables that are set are named in a warning, no others. Warnings of TensorFlow are suppressed unless ZFIT_DISABLE_TF_WARNINGS is 0, with a notice only if it is not set.", "quantifier": "all environments and all texts of the variables", "why_tests_cant": "all combinations of variables and texts, each needs its own process", "anchors": ["zfit/__init__.py: _maybe_disable_jit, _maybe_disable_warnings", "zfit/util/execution.py: RunManager.set_graph_mode"]}
{"id": "C314", "title": "The choice of the parameters makes no difference to asymmetric errors", "statement": "If the parameters of a fit are expressed by others, and the one whose errors() are asked for is an increasing function of one of these alone, then the search for the errors, evaluated at corresponding points, ends at corresponding points: the ends of the interval are the values of the function at the ends of the other interval, and a new minimum is reported for both or for none, at corresponding points. For a decreasing function, lower and upper are exchanged. In another unit or with another origin of the parameter the errors are converted like differences of the parameter, and also the starts of the search correspond, for corresponding limits and covariances. A smooth invertible change keeps the equations that the search solves: the loss is stationary in the other parameters for both or for none.", "quantifier": "all losses, changes of parameters, covariances, limits, sigmas and tolerances, and all sequences of points that the root finder evaluates", "why_tests_cant": "a test compares a few units for a few losses, with one sequence of points each", "anchors": ["zfit/minimizers/errors.py: compute_errors", "zfit/minimizers/fitresult.py: FitResult.errors"]}
{"id": "C315", "title": "Arguments that are one thing or several", "statement": "Where an argument is one thing or several (parameters, data, models, observables, losses), a string, tensor, array, table, data, loss, model, space, parameter, binning or histogram, and whatever is not iterable, counts as one; the content of any other iterable counts, in its order and with repetitions; None stays None. A list with one thing is the same as the thing, and converting again changes nothing. An error raised while iterating is reported.", "quantifier": "all objects, types, iterables, lengths and both kinds of containers", "why_tests_cant": "tests pass a few lists and single objects", "anchors": ["zfit/util/container.py: convert_to_container"]}
{"id": "C316", "title": "The unit of an observable makes no difference to a sum of PDFs", "statement": "If in another unit of the observables the density of every PDF is divided by a factor and the yields stay, then the density of every sum of them, with fractions or yields, and of sums of sums of any depth, is divided by the same factor, also the extended density; the yield is the same, and a sum that is refused is refused in both units with the same error.", "quantifier": "all formulas of sums of any depth and width, fractions, yields, PDFs of one norm, factors and points", "why_tests_cant": "tests use one unit and sums of two or three", "anchors": ["zfit/models/functor.py: SumPDF", "zfit/models/basefunctor.py: _preprocess_init_sum"]}
{"id": "C317", "title": "The units of the observables make no difference to a product of PDFs", "statement": "If every observable is replaced by a strictly increasing function of it in the events and in the limits, the same events are used; and if then the density of every PDF is divided by a factor of its own, the unnormalised value of every product of them, and of products of products of any depth, is divided by the product of these factors, for every event.", "quantifier": "all formulas of products of any depth and width, observables in any order, events, weights, limits of several pieces, increasing functions and factors", "why_tests_cant": "tests use one unit and products of two or three", "anchors": ["zfit/models/functor.py: ProductPDF", "zfit/models/basefunctor.py: FunctorMixin", "zfit/core/data.py: Data.from_tensor"]}
{"id": "C318", "title": "Arithmetic with parameters gives the same for every kind of parameter, and functions follow the parameters they are multiplied with", "statement": "An expression of +, * and any parentheses on parameters, numbers and tensors computes the number it means with the current values of the parameters; whether a parameter is free, constant or composed and on which side it stands makes no difference to the result or the error; with a function or PDF as an operand the decision table of C33 applies whichever operand comes first; and a function multiplied with parameters always uses their current values.", "quantifier": "all expressions of any size, kinds of parameters, values before and after, functions and PDFs", "why_tests_cant": "tests combine a few pairs of operands and evaluate them at once, before parameters change", "anchors": ["zfit/core/parameter.py: ZfitParameterMixin.__add__, __radd__, __mul__, __rmul__", "zfit/core/parameter.py: OverloadableMixin._OverloadOperator", "zfit/core/basemodel.py: BaseModel.__add__, __mul__", "zfit/core/operations.py: multiply, add"]}
