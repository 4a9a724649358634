# Formal model of ALiPy in Lean 4

Source: `/repo` (python, read as text; never executed).  Model and proofs: `/verif/lean`.

## Layout

* `lean/Verif/Model/*.lean` - shallow model of the Python code, function by function.
  Each definition cites the file and lines it models and says what it simplifies.
* `lean/Verif/Spec/*.lean` - small, independent definitions used to *state* properties
  (no reference to the model).
* `lean/Verif/Proof/*.lean` - helper lemmas.
* `lean/Verif/Props/*.lean` - the property theorems (`C01_...`), each followed by
  `example`s showing that its hypotheses are met by a concrete non-trivial case, and, where
  the code violates the property, by a theorem with a concrete witness.
* Theorem names start with the property id.  A theorem whose name ends in `_partial` proves
  only a part of the property (usually because the code violates the rest); the comment there
  and the table below say what is missing.
* `AXIOMS.md` - the axioms of every theorem named in `MANIFEST.json`.
* `seeded/LOG.jsonl` - wrong programs tried against the theorems.

## Modelling conventions

* Exceptions are values: `Except PyErr (...)`.  When a Python call can raise after having
  already changed its object the model returns the changed object together with the error.
* Warnings are not modelled (they do not change results), except where the model says so.
* Randomness (`np.random.shuffle`, `choice`, `randint`), classifiers, linear algebra, clocks and
  thread scheduling are parameters; theorems quantify over all of them.
* Floats are modelled by an arbitrary linearly ordered field (or `Int`/`Rat` where only integer
  arithmetic occurs), and by the reals where logarithms, roots or matrices are needed.  Rounding and
  overflow are outside of the model; NaN and infinities are modelled where the code lets them decide something
  (`Option`, `WithBot`, `WithTop`, or the extended floats `EF`). What rounding can change in the most used computations is C97.
* `deepcopy` disappears because model values are immutable; aliasing is modelled only where it
  matters and then explicitly (e.g. `coll.difference_update(coll)`).

## Trusted base

* The kernel of Lean 4.33.
* Axioms: `propext`, `Classical.choice`, `Quot.sound`, the three of Lean's library, and no others.
  `AXIOMS.md` lists for every theorem which of them it uses.  No `sorry`, no axioms of our own, no
  `native_decide` and no `bv_decide`.
* The correspondence between the Python text and the definitions in `Verif/Model`: every definition cites
  the file and lines it stands for; nothing has been extracted or executed.
* Python, numpy, sklearn and scipy behaviour as described in the comments of the model: list and
  dictionary semantics, slicing with negative bounds, boolean masks, broadcasting where it decides a result,
  `np.argsort` as any sorting permutation, `np.linalg.inv` as the inverse, `np.linalg.pinv` as any generalised inverse,
  `interp1d` as linear interpolation.
* A Python and numpy of the time of the code: `collections.Iterable` (gone in Python 3.10) is taken to exist.
* The statements: definitions in `Verif/Spec` say what the properties mean.

## What is modelled

| File of `/repo/alipy` | Modelled | Not modelled |
|--|--|--|
| index/index_collections.py | `IndexCollection`, `MultiLabelIndexCollection`, `map_whole_index_to_train`, the constructor of `FeatureIndexCollection` | printing |
| index/multi_label_tools.py | flattening, integration, size inference, `get_labelmatrix_in_multilabel`, `get_Xy_in_multilabel` | warnings |
| utils/interface.py | `BaseCollection`, `paired_ttest` | abstract classes without code |
| utils/misc.py | `randperm`, `nlargestarg`, `nsmallestarg`, argument checks of repositories, `get_gaussian_kernel_mat`, `calc_kernel_matrix` | `check_matrix`, checks of sklearn |
| utils/multi_thread.py | `aceThreading`: start, scheduling, breakpoints (what is pickled), recovery also after repeated crashes, the sets and arguments of the workers, the check of the target function, when the progress table is printed and what it shows | layout of the table |
| experiment/state.py, state_io.py | `State`, `StateIO` with workspace recovery, totals, list interface, sharing of objects with the program, saving and resuming, the progress shown | layout of the printed table, pickling as such |
| experiment/stopping_criteria.py | all | |
| experiment/al_experiment.py | the main loop, the rounds in threads or in sequence, all settings, the parameters of the strategies (C113) | printing |
| experiment/experiment_analyser.py | the forms of results, collecting, summaries, points of the curves and of their shaded areas, cost curve, the checks before plotting | drawing itself, colours |
| oracle/oracle.py | `Oracle`, `OracleQueryMultiLabel`, `OracleQueryInstance`, `Oracles`, the values in `full_history` and `__repr__` | the text of the tables, pickling of an oracle |
| oracle/knowledge_repository.py | both repositories, the values in `full_history` | the text of the tables |
| data_manipulate | all splits, saving and loading, scaling | sparse input |
| metrics/performance.py | accuracy, zero-one, AUC, hamming, ranking loss, one-error, coverage, average precision, micro AUC, precision-recall curve | wrappers, plotting |
| query_strategy/query_labels.py | uncertainty, QBC, random, graph density, QUIRE, EER, LAL, coreset, density weighted, BMDR and SPAL (parts, inner loops and the whole `select`) | training of models (LAL's regressor: only on which data), QP solver |
| query_strategy/multi_label.py | AUDI, QUIRE, MMC, Adaptive, Random: selection; `LabelRankingModel`, `_BinaryRelevance` | the kernels of QUIRE (any positive semidefinite matrix) |
| query_strategy/query_type.py | AURO, `check_query_type` | |
| query_strategy/query_features.py | AFASMC completion (with its accelerated proximal steps and the forms of the observed entries) and selection, iterative SVD (with the optimality of truncation), selection by committee stability, `QueryFeatureRandom` | numerical error of the decompositions |
| query_strategy/noisy_oracles.py | majority vote, CEAL, IEthresh, `All`, `Random` | training of the default model |
| query_strategy/cost_sensitive.py | knapsack, POSS, HALC, Performance, Random, hierarchy | fitting of classifiers |
| toolbox.py | constructor, `save`, `load`, `split_AL`, `get_split`, `get_clean_oracle`, `get_repository` (no examples; for label matrices the errors), `calc_performance_metric` (C99), `get_query_strategy` (C113), `MultiLabelIndexCollection` (C105) | the getters that only pass their arguments on |

## Per property

`proved`: the theorems together state the whole property. `partial`: they state a part, or the code violates the property; what is missing or violated is in the last column, and every violation is itself a theorem (`..._violation`) about the model.

| Id | Property | Status | Props module | What is modelled | How it is proved | What is missing, assumptions, findings |
|--|--|--|--|--|--|--|
| C01 | An IndexCollection never holds an index twice | proved | IndexCollection | `IndexCollection` as insertion-ordered list with element type; every public operation returns the new object and the exception | induction over operation histories |  |
| C02 | IndexCollection bulk operations are exactly set union and set difference | partial | IndexCollection | `update`, `difference_update`, also with the collection itself as argument (iteration over the live list) | list induction; the self-difference by induction on the live iteration | Union is proved for all arguments. difference_update(self) violates the property (every second element stays), proved as a theorem. |
| C03 | IndexCollection keeps a stable order | proved | IndexCollection | the same | list induction on the order |  |
| C04 | An IndexCollection only ever holds one element type and a rejected add changes nothing | proved | IndexCollection | element type checks of `add`/`update` | invariant over histories | Finding: a collection created empty is unusable after add(np.int64). |
| C05 | randperm returns distinct values of the requested range | proved | Sampling | `randperm` over an arbitrary shuffle | permutation lemmas | for every effect of np.random.shuffle (an arbitrary permutation); a negative k is not refused (finding, proved) |
| C06 | random_sampling returns a genuine sub-collection | proved | Sampling | `random_sampling` on top of `randperm` | permutation lemmas, rounding lemma | rate*len as an exact rational; round half to even |
| C07 | A multi-label collection only stores legal instance-label pairs | partial | MultiLabel | `MultiLabelIndexCollection`: set as duplicate-free list of raw indexes | invariant over histories | Proved for all histories of legal-bound operations; negative scalar labels and hashable compound labels passed to add/update get stored (violations). |
| C08 | Multi-label updates are set union and difference on instance-label pairs | partial | MultiLabel | its set operations for all argument kinds | set semantics of every operation | Proved for lists of indexes and for collections; a bare tuple with a list of labels and a copied collection violate it. |
| C09 | Flattening and integrating multi-label indexes denote the same pairs | proved | MultiLabelTools | `flattern_multilabel_index`, `integrate_multilabel_index` as folds over dictionaries | denotation of an index list as set of pairs, fold invariants | for index lists whose labels lie within the label set; labels outside break the integrated form (finding, proved) |
| C10 | Fully and partially labelled instances partition the instances of a collection | proved | MultiLabel | `get_unbroken_instances`, `get_break_instances` | set reasoning |  |
| C11 | One-dimensional pair numbering is a bijection | proved | MultiLabel | encoding and decoding of one-dimensional indexes | division with remainder | with the same order passed to both; the defaults of the two functions differ (finding, proved) |
| C12 | Matrix masks and collections are inverse to each other | partial | MultiLabelMask | `get_matrix_mask`, `construct_by_element_mask`, dense and sparse | entrywise reasoning | Dense form and round trip for non-empty, non-complete collections; the sparse mask is always zero and complete/empty masks are refused (violations). |
| C13 | Label matrix extraction returns exactly the requested cells | partial | MultiLabelTools | `get_labelmatrix_in_multilabel`, `get_Xy_in_multilabel` | fold invariant on the prefix processed | All legal indexes in full; negative instances are not refused (violation). |
| C14 | map_whole_index_to_train translates positions faithfully | partial | MultiLabelMask | `map_whole_index_to_train` | list induction | Training indexes given as numpy array, or as a Python list if the collection holds numpy numbers only (as after construction). With a list the call fails with IndexError once an index has been added to the collection (violation); the label size of a multi-label collection is lost (violation). |
| C15 | The critical entries of a State cannot be lost | proved | State | `State` as dictionary | dictionary lemmas, invariant |  |
| C16 | get_workspace(k) is the replay of the first k queries | proved | StateIO | `StateIO` with abstract index containers | induction over the list of states; container laws proved for both containers | for every index container that satisfies the set law (Spec.SetLaw), with the two concrete containers as corollaries |
| C17 | Labelled and unlabelled sets stay disjoint and lose nothing over any history | proved | StateIO | the same | invariant over histories |  |
| C18 | recover_workspace(k) is the same as never having run the later queries | partial | StateIO | `recover_workspace` | induction over the prefix replayed | The index sets and the history are those of the earlier iteration; the cost and query totals stay those of the longer history until refresh_info (violation). |
| C19 | Reported total cost and query count equal the sum over the recorded states | partial | StateIO | cost and query totals of `StateIO` | invariant over histories | Holds for growing histories and after refresh_info; pop, a cost set later, and a dict state break it (violations). |
| C20 | check_batch_size reports whether all recorded queries have one batch size | partial | StateIO | `check_batch_size` | induction over the states | The last state is not compared, and one single state never counts (violations). |
| C21 | The stopping decision follows the documented criterion | proved | Stopping | `StoppingCriteria`: constructor, `update_information`, `is_stop` | case analysis and history induction |  |
| C22 | Once reached, a stopping criterion stays reached | proved | Stopping | the same with `reset` | monotonicity of the counters along histories |  |
| C23 | The built-in experiment loop ends and spends exactly its query budget | proved | MainLoop | main loop of `AlExperiment` over an arbitrary strategy | termination measure: number of unlabelled indexes | for every strategy returning a non-empty part of the unlabelled set; finding: an initially empty unlabelled set is queried once |
| C24 | The built-in experiment loop honours a cost limit | partial | MainLoop | the same with cost limit | invariant: recorded cost is 0 | The loop records no costs, so a positive limit is never reached and everything gets labelled (violation); for loops recording costs see C21. |
| C25 | An oracle answers each query with the stored label and cost, in order | partial | Oracle | `Oracle`: pools as dictionaries, query loops with exceptions | refinement to a last-write-wins map over histories | query_by_index in full over all histories of add_knowledge (also failing ones); query_by_example when the examples of different indexes differ; two indexes with equal examples violate it. |
| C26 | An oracle refuses an unknown index with KeyError and hands out nothing | partial | Oracle | the same, unknown keys | case analysis on the loop position | Unknown indexes are refused whatever their position and nothing changes; but in two situations the exception is not KeyError (violation). |
| C27 | A multi-label oracle returns exactly the requested labels with their costs | partial | OracleMultiLabel | `OracleQueryMultiLabel` | fold invariants | query_by_index with numpy (or default) costs; list-valued costs and query_by_example fail (violations). |
| C28 | The cost charged by a set of oracles equals the sum over its query history | partial | Oracles | `Oracles`: cost accounting, queries through the collection | invariant over histories | All histories whose answers numpy can add up; answers with costs of different lengths are recorded but not charged (violation). |
| C29 | An ElementRepository hands back what was last stored, aligned | partial | Repository, RepositoryAny | `ElementRepository` | refinement to a map over histories; for arbitrary histories an invariant of the three dictionaries over the log of events | All histories in which no index and no example is stored while it is already there; retrieve_by_indexes for arbitrary histories, with and without examples. Repeated indexes give two rows (and KeyError after a discard), equal examples break discard, clear fails without examples (violations). |
| C30 | A MatrixRepository keeps examples, labels and indexes aligned | partial | RepositoryMatrix | `MatrixRepository` | alignment invariant over histories | All histories in which a repository with examples is always given fitting examples (failures by label shape included). A missing example leaves the arrays misaligned, the constructor accepts repeated indexes, a cleared repository is unusable (violations). |
| C31 | nlargestarg / nsmallestarg return the positions of the n largest / smallest | partial | Sampling | `nlargestarg`, `nsmallestarg` over any sorting permutation | list slices of sorted permutations | nsmallestarg in full; nlargestarg for n <= len; for len < n < 2 len the code returns too few positions (negative slice start), shown by the violation theorem |
| C32 | The instance-level split is a partition | partial | Split | `split` over arbitrary shuffles | permutation lemmas | Partition for all ratios, sizes, termination. The labelled set is empty when the rounded training size is 0 (violation). |
| C33 | A split with all_class=True labels every class | partial | Split | `split` with `all_class`, the retry loop over a stream of shuffles | induction on retries | Default instance indexes, any labels / non-negative label matrix. y is indexed with the instance indexes (violations), -1/+1 matrices pass without positive example (violation); endless loops for a zero column and for double rounding. |
| C34 | Multi-label and feature splits partition the instance-label pairs of the training set | partial | Split | `split_features`, `split_multi_label` | permutation lemmas, induction on retries | Partition of instances and pairs for all retries; sizes except that a retry of split_features asks for a factor L fewer entries (violation). |
| C35 | A saved split can be loaded back | partial | Split | saving and loading splits, files as map from names to contents | case analysis on shapes | At least two rounds and two indexes per set, single-label. One-round splits lose an axis, multi-label splits are not found again or an older one is returned (violations). |
| C36 | minmax_scale maps each column onto the feature range and keeps the order | proved | Scale | `minmax_scale` with NaN | ordered field algebra | Exact rational arithmetic instead of floats. |
| C37 | Accuracy and zero-one loss are complementary fractions | partial | Metrics | `accuracy_score`, `zero_one_loss` | counting lemmas | Vectors and two-valued matrices in full. zero_one_loss(normalize=False) is not the number of wrong predictions, and matrices with three values are compared cell by cell or refused (violations). |
| C38 | roc_auc_score is the probability that a positive is ranked above a negative | proved | Ranking | `roc_auc_score` with ties | induction over groups of equal scores; trapezoid sum = pair statistic | All scores with ties, exact rational arithmetic; the trapezoid rule over the modelled curve equals the pair statistic. |
| C39 | hamming_loss is the fraction of wrong label cells | partial | Metrics | `hamming_loss` | counting lemmas | Vectors and two-valued matrices; with three values the loss can be the number of columns, and a column against a vector is broadcast (violations). |
| C40 | label_ranking_loss counts the wrongly ordered label pairs | partial | Ranking | `label_ranking_loss` | counting of inverted pairs | 0/1 matrices with any scores and weights; with -1/+1 labels the loss is always 0 (violation). |
| C41 | Never more than max_thread workers at a time and each fold started exactly once | proved | Threads | `aceThreading` as transition system with arbitrary interleavings | invariants over all traces; fair termination by a measure | Transition system with arbitrary interleavings; termination under fairness. Finding: max_thread or more foreign threads make it wait for ever. |
| C42 | Instance selection returns distinct unlabelled indexes of the requested number | partial | Pool, Select | `select` of uncertainty, QBC, random, density, graph density, LAL, QUIRE | selection lemmas over any sorting permutation | Uncertainty and QBC in full; random selection only for index collections (lists and arrays raise: violation); density weighted selection only for batch sizes up to the pool size (too few otherwise: violation). Graph density and LAL in full. QUIRE always returns one index; it is unlabelled when some evaluation is finite, otherwise it is the last training index (violation). |
| C43 | Uncertainty selection picks the most uncertain examples | proved | Select | the uncertainty measures | order lemmas; real analysis for entropy | Exact field arithmetic; entropy over the reals up to 1e-9 per class, which the code adds inside of the logarithm (16e-6 per class with zero probabilities, which it replaces by 1e-6). |
| C44 | The knapsack selection is optimal and within budget | proved | Knapsack | `select_Knapsack_01`, a dynamic programme | table invariant by induction over items and capacities | Exact field arithmetic for the values, integer costs and capacity. |
| C45 | Farthest-first batch selection covers the pool within twice the optimum | partial | Coreset | `QueryInstanceCoresetGreedy` with its kept distances | greedy 2-approximation by pigeonhole; invariant over histories of calls | Holds for every history of calls in which the labelled set only grows by at least the points chosen before, with train_idx an array (or numpy numbers as labelled indexes); empty labelled sets raise, so does a list as train_idx with plain numbers as labelled indexes, too large batches give duplicates, and a batch that was selected but not labelled is never selected again (violations). |
| C46 | Majority vote returns a most frequent label, first seen on ties | partial | NoisyOracles | `majority_vote` | counting with dictionaries | Everything except for the weights, which are ignored (violation). |
| C47 | Matrix completion never changes observed entries and never looks at unobserved ones | partial | Completion | AFASMC and iterative SVD completion | invariant of the iteration, non-interference | AFASMC in exact arithmetic in full (a NaN as unobserved entry gets into the result: violation). The iterative SVD keeps observed entries, but starts from the unobserved ones and so returns them (violation). |
| C48 | Pair-selecting multi-label strategies only return unlabelled pairs | partial | MultiLabelSelect | `select` of AUDI, AURO, QUIRE, Random (multi-label) for arbitrary scores | case analysis over extended floats | AUDI, QUIRE and random pairs in full, for all model outputs including infinities and NaN. AURO: raises ValueError once no instance has two unknown labels; may return a known label for scores of -inf (violations). Random instances: ValueError if there are more pairs but fewer instances than the batch size (violation). |
| C49 | POSS returns the best within-budget candidate it has generated | partial | Knapsack, PossReach | `select_POSS` | invariant over the populations | Holds when some within-budget candidate of positive cost is generated; otherwise the function returns the empty selection with value infinity (violation). |
| C50 | Cost-sensitive random selection stays within budget | partial | CostRandom | `QueryCostSensitiveRandom` | induction over the draws | Holds when the pool costs more than the budget; otherwise the call raises ValueError for all random choices (violation). |
| C51 | Repositories charge every stored answer exactly once | partial | RepositoryCharges, RepositoryCost | all calls of both repositories, failing ones too | case analysis of a call; induction over the entries of a call and over sequences of calls | ElementRepository in full; MatrixRepository, along any sequence of calls: charged are exactly the entries of which the index is stored, and the total is the sum of the recorded costs; but a call that raises for a missing or ill-fitting example has stored index and cost (violation). |
| C52 | StandardScale centres every column and scales it to unit variance | partial | Scale | `StandardScale` | field algebra | Mean 0 proved; the variance of the result is 1/var because the code divides by the variance (violation); constant columns divide by zero (violation). |
| C53 | Recovering a crashed multi-thread experiment loses no round and no saved result | partial | Threads, ThreadsAgain | `recover` after a crash at any point of the transition system, and the recovered object running in the directory left by the crash (`Model/ThreadsAgain.lean`), any number of times | Invariant relating files and threads; for repeated crashes the same invariant with the rounds that ended in earlier runs, by induction over the runs. The violations are built step by step for arbitrary numbers of rounds and threads. | Holds for crashes outside the window between Thread.start and the breakpoint write, if workers save before ending and recover does not raise; for any number of crashes and recoveries if moreover no crash falls in a moment in which a round that is to be continued stands in the breakpoint file as not running (C53_recover_again_partial, C53_finished_kept). Violated, in every experiment with enough rounds and threads: in the window (C53_race_violation), after a worker's exception (C53_exception_violation), before a worker's first save (C53_unsaved_violation), and after a second crash: the rounds a recovered object was to continue and has not yet started are taken for finished (C53_second_crash_violation). |
| C54 | Selecting does not change the arrays of the caller | partial | Select | the effect of `select` on the caller's arrays | equations | Uncertainty selection; by entropy zero entries of the caller's matrix are overwritten (violation). |
| C55 | Query by committee picks the examples with the greatest disagreement; density weighting the greatest product of uncertainty and diversity | partial | Committee | committee disagreement, density weighting | real analysis (logarithm bounds), order lemmas | Vote entropy and KL divergence up to the 1e-9 inside of the logarithms (real logarithm, exact arithmetic); density weighting picks the largest product for batches not larger than the pool; dominance holds for least_confident (and, by the product theorem, entropy), while with margin the diversity term works the wrong way round (violation). 0/1 outputs without a 0 or without a 1, as of a unanimous committee, are refused (violation). |
| C56 | Expected error reduction weighs every label's loss with the probability of that label | partial | Pool | expected error reduction | sum manipulation over probabilities | Holds for classes 0..c-1; the label itself is used as column number, so classes -1/1 weigh both losses with the same probability and classes 1..c raise IndexError (violations). |
| C57 | IEthresh asks exactly the oracles above the threshold and scores them by agreement with the vote | partial | IEthresh | `QueryNoisyOraclesIEthresh` | invariant over histories | Holds for at least two oracles which know all instances asked (scores: no instance asked twice). One oracle: IndexError from the second call on; an instance unknown to one oracle makes later calls raise KeyError (violations). Critical values, standard deviation and root are parameters (non-negative). |
| C58 | CEAL returns the best pair of example and oracle | partial | IEthresh | `QueryNoisyOraclesCEAL` | argmax lemmas | Holds with the given costs, at least two initially labelled and two unlabelled examples and a positive number of neighbours; with one initially labelled example, with zero neighbours or with only one unlabelled example left the query raises ValueError, and eval_cost is ignored (violations); C58_nearest_ignored: the mistakes on initially labelled examples that coincide with the unlabelled example do not count. |
| C59 | AFASMC returns the completion with the smallest objective it has computed | partial | Completion | inner and outer loop of AFASMC | loop invariants | The inner loop returns its best iterate; the outer loop reads the objectives at the wrong position and so returns the first round's result whenever the number of the last inner step is at least the number of rounds (violation); the best objective so far is a view of a row of the array of objectives, and if the first round ends with step k and there are k+1 rounds the last round's result is returned, whatever the objectives (violation); IndexError for one inner step (violation). |
| C60 | Feature selection returns an unknown entry | partial | Completion, FeatureCalls | `QueryFeatureAFASMC.select`, the feature selection over a committee of completed matrices and `QueryFeatureStability` | argmax lemmas over matrices; induction over the calls for the matrices kept (`Model/FeatureCalls.lean`) | Returns a missing entry with the largest variance if that variance is positive; otherwise the first entry even if observed; the unknown entries given are ignored; training indexes given as list raise if an observed entry has a plain Python number; the Stability committee raises AssertionError if nothing was observed yet (violations). |
| C61 | QUIRE returns the unlabelled example with the smallest evaluation | partial | Quire | QUIRE's matrices over the reals | Schur complements, block inverses | Holds if the kernel is zero between labelled and unlabelled examples, or with one unlabelled example. The computed inverse of L_aa is right only in that case (inv(lambda I) is used instead of inv(lambda I + K_ll): violation, an equivalence), its reduction by one example uses an inner instead of an outer product (violation, an equivalence), a suboptimal example may be returned (violation), and the last training example is returned, labelled or not, when the computed inverse has a zero diagonal, as for duplicated examples (violation). Exact real arithmetic. |
| C62 | The saver is the list of the states added to it | partial | StateList | `StateIO` as list of states | refinement to lists over histories | Everything but pop() without argument, which raises TypeError for every saver although the last state is documented (violation). |
| C63 | one_error is an error | partial | RankingMetrics | `one_error` | counting lemmas | It is the fraction of the samples with as many predicted as relevant labels: 1 for perfect predictions, 0 if every sample has too many or too few (violations). |
| C64 | Coverage error is the mean rank needed to cover the relevant labels | proved | RankingMetrics | `coverage_error` | counting lemmas | 0/1 labels, exact scores. |
| C65 | The two ranking average precisions | partial | RankingMetrics | `label_ranking_average_precision_score`, `average_precision_score` | induction over sorted lists | label_ranking_average_precision_score without weights in full; with weights the samples with no or all labels get weight 1 (violation, an equivalence). average_precision_score for distinct scores and samples with a relevant and an irrelevant label; other samples are skipped but counted (violation), ties depend on the order of the labels (violation), weights are ignored (violation). |
| C66 | micro_auc_score is the area under the curve of all entries | partial | RankingMetrics | `micro_auc_score` | counting of pairs | It is the mean over the classes (macro average, violation), ties count 0 (violation) and a class with one label only raises ZeroDivisionError (violation). Holds for one class without ties. |
| C67 | The precision-recall curve lists the thresholds down to full recall | partial | RankingMetrics | `precision_recall_curve` | induction over sorted scores | Everything but the distinctness of the thresholds: a score above the lowest positive one that occurs several times is returned several times (violation). |
| C68 | MMC and Adaptive return a batch of distinct unlabelled instances and leave the collections alone | partial | MultiLabelBatch | `select` of MMC and Adaptive with its effect on the arguments | loop induction over the batch | The batch of distinct instances in tuples when the pool is larger than the batch; otherwise plain indexes (violation). Index collections passed to select are changed by it (violation), also when training raises midway (violation). |
| C69 | MMC and Adaptive select what their papers say | partial | MultiLabelBatch | scores of MMC and Adaptive | argmax lemmas, induction over the sorted probabilities | Probabilities, scores and estimated errors are parameters. MMC's number of labels is learned from the label sums, which is wrong with -1/1 labels (violation, an equivalence). |
| C70 | Completing queried labels along the hierarchy adds what follows from them | partial | Hierarchy | `hierarchical_multilabel_mark` | exact description of the added set; reachability in the hierarchy | The exact set added is proved. With the documented orientation of the tree the wrong neighbours are added: children of positive and parents of negative labels, which do not follow (violation), while what follows is not added (violation). With the transposed tree everything added follows, but only one step is made (violation). |
| C71 | Cost-sensitive selection takes the best unlabelled pairs within the budget | partial | CostSelect | selections of HALC and Performance | combination with knapsack optimality (C44) | At least as many instances and as large a budget as classes, and fewer than `budget` pairs per class; otherwise IndexError (violation) or one pair too few (violation). HALC returns labelled pairs when the budget exceeds the cost of the unlabelled ones (violation). Integer costs; decision values not 0. |
| C72 | HALC's informativeness is the documented one | partial | CostSelect | HALC's information value | sums over descendants | Only for labels whose only descendant is label 1. Twice the uncertainty for positive labels and leaves, nothing of the descendants for other labels (violations); weights of the documented length are refused unless there are as many instances as classes (violation). |
| C73 | The learning curve shows the mean performance against the number of queries | partial | Analyser | points of `plot_learning_curves`, shifts, start points | list lemmas, algebra | All folds with equally many queries, and all or none with an initial point. Otherwise a curve is drawn one query too far to the left or right, depending on the methods added before (the shift found first is kept) or after (lists added last), folds of different length are accepted but not drawn, and a start_point needs plot_interval 1 and no initial points (violations). |
| C74 | The summary of a method does not depend on how its results are passed | partial | Analyser | summaries of methods | algebra of means and variances | Mean and lengths agree. The standard deviation does not unless every fold is constant (violation, an equivalence): it is taken over folds for StateIO objects but over all single performances for lists. |
| C75 | The cost curve is the mean of the interpolated performances of the folds | partial | CostCurve | the cost curve with linear interpolation on a common grid | piecewise linear interpolation lemmas | Positive costs. The initial point of the last fold is used for all folds (violation). Points are those handed to matplotlib; scipy's interp1d is modelled. |
| C76 | BMDR and SPAL end and return a batch of distinct unlabelled indexes | proved | Bmdr, BmdrSelect | the loop of `select` with the solver as parameter; recoding of labels | induction over the rounds; `C76_run` gives the models and selections of all rounds | Solver output: one number for every unlabelled example. The message texts and the import of cvxpy are not modelled. |
| C77 | The updates of BMDR and SPAL minimise what they are meant to | proved | Bmdr, BmdrSelect | the numerical steps over the reals | convexity: quadratic expansion, generalised inverses, soft thresholding, subgradients; `C77_round_easiness` and `C77_training_set` say it of the functions of which the whole `select` is made | Over the reals; np.linalg.pinv is any function giving generalised inverses. That the loop converges to such a point is C111. |
| C78 | The QP of BMDR and SPAL balances the distance of the means against informativeness | partial | Bmdr, BmdrSelect | the objective of the QP | algebra in feature space; second differences along feasible lines; `C78_round_partial` says it of the vector passed to the solver in a round | The quadratic term has half the factor it should have (violation): no multiple of the distance of the means is the representativeness part of the objective, not even on the feasible selections. What the objective is instead is proved. |
| C79 | The Gaussian kernel matrix | proved | Kernel | `get_gaussian_kernel_mat` | Schur product theorem and the exponential series | Over the reals, sigma other than 0. |
| C80 | A whole active-learning session keeps its promises | proved | Session | `Oracle`, both repositories, `IndexCollection`, `State`, `StateIO`, `StoppingCriteria` composed into the loop of the example scripts | one invariant over the rounds, from the laws of the parts (C16, C21, C25, C29, C51) and of the strategies (C42) | The loop is the one of the example scripts (a hand-written loop), with repositories without examples; training of the model and saver.save() are not modelled. The library's own loop AlExperiment is C23/C24. |
| C81 | Noisy-oracle strategies pick the least sure example and the right oracles | partial | NoisySelect | `QueryNoisyOraclesAll`, `QueryNoisyOraclesRandom`, their base classes, and the round of examples/AL_settings/noisy_oracles.py | induction over the rounds from the laws of uncertainty sampling (C42, C43) and of the vote (C46) | Proved for pools of at least two examples, oracles registered before the strategy is constructed, and an Oracles object: the instance, the named oracles, and any number of rounds that leaves one example. Violations: with one unlabelled example the strategies return the index array instead of a pair, so the last example can never be labelled; the names are read off at construction, so oracles added later are never asked by All and make Random raise KeyError; with a list of oracles get_majority_vote ignores the named oracles and asks (and charges) all of them. |
| C82 | A toolbox saved on disk is the one every later run gets | partial | ToolBox | the constructor of `ToolBox`, `save`, `load`, `split_AL`, and sequences of runs on one disk | induction over the runs | Proved for a toolbox that is saved in a directory and was made for that path. Violations: with a file as saving path split_AL always raises (split_save requires a directory) and the toolbox is never split; two objects constructed at one path before either is split keep different splits; a toolbox directory that was moved before the split saves its split under the old path, so that the next run splits anew. |
| C83 | The objects a toolbox hands out for a round fit together | partial | ToolBox, ToolBoxMatrix | `split_AL`, `get_split`, `get_repository`, `get_clean_oracle` composed with the session of C80 | composition of the laws of `split` (C32), of the constructor of `IndexCollection` (C02) and of the session (C80); for label matrices C34, C08, C27 and C93 | Proved for a vector or a matrix of labels (the latter without the repository, with a session of C93), default instance indexes and query_type AllLabels, for rounds whose labelled and unlabelled sets are not empty (see C32 for when they are). Violations: cost_mat is ignored unless query_by_example is set; with PartLabels get_clean_oracle returns None; with Features an instance split is made, and then get_split raises; given names are taken as positions by get_repository; with a label matrix get_repository raises (three or more labelled pairs; it passes a list of tuples to numpy). |
| C84 | The label ranking model predicts the labels ranked above the threshold | proved | LabelRanking | `get_BV`, `lr_predict`, `predict` | exchange of sums, folds of maxima | Over a linearly ordered field; the averages are those of C86. |
| C85 | A training step of the label ranking model improves the ranking it looks at | proved | LabelRanking | `train_model` with the random numbers as parameters | a quadratic form in the difference of the columns and the embedded example is non-negative exactly under the size condition; induction over the pairs | Over a linearly ordered field; norm_up is infinite in the code, so the projections are not modelled. The order of the pairs and the draws are parameters. |
| C86 | fit of the label ranking model learns from the labels it is given, incrementally or from the start | partial | LabelRanking | `init_model_train`, `fit`; the arrays shared between attributes are one field | induction over the calls; a simulation between the incremental and the other call | Proved: the averages are means of at least one model after any sequence of calls, and exactly which models of a pass are added; incremental calls continue. Violations: train_model changes B and V in place, and the saved initial parameters are the same arrays, so that fit(is_incremental=False) trains B and V exactly as an incremental call does (only the averages are set back); labels 0.5 have no influence at all; if a label has the value 2 the last real label is taken for the threshold label and gets no prediction. |
| C87 | Binary relevance trains one classifier per label and its three kinds of answers agree | partial | BinaryRelevance | `_BinaryRelevance`, `DummyClf`; the base classifier is a parameter with the three methods | inversion of the loop over the columns | Proved for labels 0 and 1 and base classifiers SVC and LogisticRegression. Violations: with labels 1 and -1 a label no training example has is predicted as -1 but with probability 1 and the real value 1; for other base classifiers predict_real is 0 for every label with both values. |
| C88 | Selecting never depends on labels that are not known yet | partial | Adaptive, Peek | `select` from the label matrix on, with training as a parameter that gets exactly what the code passes to `fit` | two runs are compared step by step; for AUDI and AURO by induction over the labelled pairs, with C10 for the fully labelled examples | Proved without restriction for uncertainty sampling, QBC, QUIRE, AUDI, AURO, Adaptive, HALC and Performance; for BMDR and SPAL if both classes are among the known labels. Violations: EER takes the classes from all labels, and a class that occurs only among unknown labels makes it raise; MMC decides from all labels whether all examples have equally many, and raises or not accordingly. Both are proved for label sets that agree in this respect. |
| C89 | Multi-label QUIRE asks for the pair with the smallest evaluation | partial | MLQuire | `QueryMultiLabelQUIRE`: constructor (`L`), `select` from the indexes on, over the real numbers; the pseudoinverse is a parameter that inverts invertible matrices | completing the square, the Schur complement for the downdated inverse, the block structure of the Kronecker product | Proved for a pool of at most two pairs, or of pairs of pairwise different labels, if the set of known pairs is iterated in sorted order. Violations: b.T.dot(b) of one-dimensional arrays is a number, so that with three or more pairs the inverse without a pair is wrong unless the pair is unrelated to all others, with a case in which a wrong pair is returned; the labels follow the iteration order of label_index while the indexes are sorted, so that labels are attributed to wrong pairs, with a case in which a wrong pair is returned. |
| C90 | Adaptive weighs uncertainty against label cardinality and decides by the estimated error | partial | Adaptive | `QueryMultiLabelAdaptive.sequential_select` from the indexes on, over the real numbers, with the model of binary relevance; infinite margins are `⊤` | induction over the rows for the masked minima and maxima; the measure for -1/1 is a multiple of that for 0/1, which does not change the best ones; C69 for the choice | Proved as stated for the real values given by binary relevance. Violation: with a base classifier other than SVC and LogisticRegression (the documentation only asks for predict_proba) all examples have the same real values, hence the same uncertainty. For labels -1/1 the real values of labels that no labelled example has are wrong, see C87. |
| C91 | Every round of an AlExperiment gives what it would give alone | partial | Experiment | the rounds of `start_query` as processes that share `self._model`, scheduled by the threads of `aceThreading` (model of C41), or run one after another | invariants over all reachable states; with one thread at most one worker runs (C41); for any schedule each round simulates the loop of C23 with the models it happens to see; a schedule is constructed for the violation | Proved with max_thread=1 and with multi_thread=False; for any number of threads the bookkeeping (partition, queries, stopping) is right. Violations: the rounds share one model, so that with two threads a round can record the performance of the model of another round, and it keeps it; with time_limit the time is counted from the construction of the experiment, so that with multi_thread=False rounds after the one that used up the time make no query. fit and predict are one step each, query strategies keep no state between queries. |
| C92 | start_query runs with the settings made last, and does not hide failures | partial | Setup | all methods of `AlExperiment` that set something, `start_query`, `get_experiment_result`, as steps on the attributes of the object | induction over the history of calls | Proved for histories of calls that do not raise, without a predefined strategy after a user-defined one. Violations: performance_metric of the constructor is ignored; after a user-defined strategy QUIRE and graph density are not used at all and others get its keyword arguments; a failing split_AL or set_query_strategy changes the object; with threads exceptions of rounds are lost; with multi_thread=False results of repeated calls accumulate. |
| C93 | A session that asks for entries of a matrix asks each one once, ends, and its record says what happened | partial | PairSession | the loop of examples/AL_settings/feature_querying.py with the models of the collection, `State`, `StateIO` and `StoppingCriteria`; a strategy answers with a list of its own or with the container it was given (object identity is a constructor of the answer) | induction over the loop with the invariant that the record agrees with the collections; for the violations the invariant after the container was handed back | Proved for strategies that always return a list of their own, and for the strategies as they are within a budget that keeps away from the end of the pool. Violations: with few unknown entries the strategies return the container itself; removing it from itself empties it, so that the State records an empty query and the workspace of the saver still has the entries as unknown. So a session without criterion, with a cost limit, or with 100 per cent never ends, and a session with a larger budget makes empty queries. QueryFeatureRandom raises ValueError with 2 or more, but fewer than batch_size unknown entries. |
| C94 | Graph density takes the densest example and lowers its neighbours | partial | GraphDensity | `_compute_graph_density` over the real numbers with nearest neighbours and distances as parameters; `select` is the model of C42 | induction over the edges for the weights; induction over the loop with the invariant that taken and labelled examples are below all others; a series of calls by concatenation of greedy choices | Proved: the graph, the densities, and that a call and a series of calls are a greedy choice. Violations: when the greatest density left is negative (the rule once neighbours of each other have been taken) its neighbours are raised, not lowered; the changed densities stay in the object, so that a second experiment with the same object does not start from the densities of the graph. The nearest neighbours are those of the Manhattan distance whatever the metric; they are a parameter of the model. |
| C95 | What a StateIO has recorded is not changed from outside | partial | Alias | a heap of mutable objects with references; `copy.copy`, `copy.deepcopy` (copies the whole heap: what is not reachable makes no difference), `State`, and the methods of `StateIO` that take or return objects | induction over the program with an owner for every object: objects of the saver refer to objects of the saver only, and no variable of the program refers to one | Proved for programs that do not index the saver or iterate over it, and for performances and costs that are numbers or flat lists. Violations: saver[i] and iteration hand out the recorded State itself, so that set_value on it changes the record; performance and cost are copied at the top only, so that a later change of an inner object changes the state; initial_point is kept by reference. |
| C96 | The value of a metric does not depend on how the examples and labels are listed | partial | MetricSymmetry | the metrics of C37-C40 and C63-C67; arguments are tables over any list of examples and any list of labels | permutation lemmas for sums, counts and sorting; for the ranking metrics also through their characterisations; sorting commutes with strictly increasing maps | Proved, including which exception is raised, for all metrics and orders, but not for the order of the labels in average_precision_score when an example has equal scores (violation: 1 or 1/2 for the same example). Violations: one_error changes when 1 is added to all scores; label_ranking_average_precision_score changes with the unit of the weights. Exact arithmetic. |
| C97 | Rounding errors of floating point numbers change selections, accuracies, sizes and limits by no more than the errors themselves | partial | Rounding | uncertainty sampling, unweighted accuracy, sizes of splits, fraction and cost limits with a rounding after every operation; the rounding is any function with a bounded absolute error on a range (for doubles up to 2^m: 2^(m-54)), `np.sum` adds along any tree, `np.log` has any bounded error | induction over the tree for sums; v * \|log a - log b\| <= \|a - b\| for a, b >= v; a value away from halves by more than the error is rounded alike; fixed point numbers as an instance and for the violation | Proved except for `cost_limit`, which is exact only up to the rounding error per query: `C97_cost_limit_violation` (queries of cost 1/m do not reach the limit 1 after m of them; with doubles, ten queries of cost 0.1 give 0.9999999999999999). Overflow, NaN and the error of `np.log` itself are not modelled (the latter is a parameter). |
| C98 | A session that is killed and resumed from the saved file ends with the record of an uninterrupted one | partial | Resume | the loop of examples/AL_settings/query_instance.py with the models of `State`, `StateIO` and `StoppingCriteria`, its process and its file as a transition system: steps of the program and interruptions in any order; opening the file empties it | induction over the events with the invariant that memory and file are points of the one course of the uninterrupted session (workspace of the record = current sets; the criterion depends on the record only); a decreasing number of steps left for the end | Proved for every criterion but `time_limit` and for interruptions at any point but within `save`. `C98_killed_while_saving_violation`: `save` empties the file before it writes (state_io.py line 161), so a process killed there leaves a file that cannot be loaded, and all of the record is lost. `C98_time_limit_violation`: the time starts anew when a session is resumed. Strategies with randomness or a memory of their own are not covered; a complete file is taken to give back the object saved. |
| C99 | The performance computed by the toolbox is the metric of the predictions handed over | partial | Perf | `calc_performance_metric` over the models of the metrics (C37-C39, C63-C66): the names, the choice by parameter name, the first column of the predictions; the call of `AlExperiment`. Scores handed to `accuracy_score` and `hamming_loss` are not modelled | the theorems of the metrics; the pair statistic of `1 - p` is one minus that of `p` (credit of every pair is reversed); the credit of two predicted labels is the mean of two indicators, so that the sum over the pairs splits into the two recalls | Proved for accuracy and Hamming loss of label vectors and of label matrices of at most two values, unknown names, for the area under the curve of scores in a table with one column, and for AlExperiment. Violations: for the metrics with scores only the first column is used (toolbox.py line 444), so that with the probabilities of predict_proba the result is one minus the area under the curve of the positive class; scores in one dimension raise IndexError; coverage_error, label_ranking_loss and label_ranking_average_precision_score raise for all arguments. one_error and f1_score are passed on (C63 says what one_error computes; f1_score is sklearn's). |
| C100 | What uncertainty sampling selects does not depend on how classes, examples and committee members are listed, and for two classes not on the measure | partial | Agree | the model of C43 and C55; argsort is any function that sorts, also a different one for every call | the pool sorted by the scores is unique if no two scores are equal, the selection is its end (`byLargest_end`, `perm_sorted_eq`); permuted rows have the same partition points and sums; for two classes `x log(x + e)` is strictly convex (strict convexity of `x log x`, concavity of `log`), so that the entropy is strictly decreasing in the confidence; the violation by bounds on `log 2` | The listing of classes, examples and committee members: proved. Two classes: proved if both probabilities are positive. Violation: the entropy measure replaces a probability of 0 by 1e-6 (query_labels.py line 212), so that an example whose class is certain is taken to be more uncertain than every example with a probability of at most 1e-7 for the other class, which the other two measures prefer. |
| C101 | Splits and random selections are fair | proved | Fair, FairPairs, FairSplits | the models of C05, C06, C32, C33 and C42 with the shuffle given by a permutation of the positions; probability is counting | the result is the shuffled list cut at places that do not depend on the permutation (`round_shape`), so that an event is `f ∘ σ = c` for the roles `f` of the instances and `c` of the positions; such permutations form a coset of the stabilizer of `f`, whose size is a product of factorials (Mathlib's `DomMulAct.stabilizer_card`); for `all_class` the draws before the last are rejected independently of the last, and acceptance depends on the set of labelled instances only; a feature split uses two independent permutations, and the encoded positions are in bijection with the entries of the training instances, so the counts multiply (`card_pairs`, `entries_count`) | Under the assumption that all permutations are equally likely effects of np.random.shuffle; probability is the number of permutations. Of multi-label and feature splits those that do not ask for all classes or features are covered (`C101_multi_label`, `C101_feature_split`). |
| C102 | Query by committee takes the examples on which the committee agrees last | proved | Consensus | the models of C43 and C55 | the score of a unanimous vote is below zero and that of a disputed one above, summand by summand; for two classes and for distributions strict convexity of x log(x + 1e-9) with Jensen's inequality | Real logarithm, exact arithmetic. 0/1 outputs are subject to the refusal of unanimous committees stated in C55. |
| C103 | The verdict of paired_ttest is that of the two-tailed paired t-test | partial | TTest | `paired_ttest` with the formula of `scipy.stats.ttest_rel` over the reals, `NaN` and infinity as values of their own, shapes of the arguments | the statistic is a function of mean and variance, which change by factors that cancel; squares instead of roots for the comparison | Proved for arrays of one dimension and for two rows or two columns. Violations: the example of the docstring is said to give 1 but gives 0; a row beside an array of one dimension or a column raises AssertionError, a column as second argument beside an array of one dimension TypeError. The survival function of Student's distribution is a parameter; scipy.stats.ttest_rel is its formula, over the reals. |
| C104 | LAL asks for the examples with the greatest predicted reduction, and tells its regressor what it should know | partial | Lal | the features of `QueryInstanceLAL.select` computed from what is read off the forest, its constructor without training | sums over lists; the deviation of numbers in [0, 1] is at most 1/2 as x² ≤ x | The features are proved for a positive and a non-positive label. Violations: with two positive labels (1 and 2) the share of positive labels is always 1; the fifth feature, called coefficient of variance of the importances, is the standard deviation divided by the number of features, the square of the number of features times less. The forest and the regressor are parameters, real numbers. |
| C105 | Pairs may be passed to a strategy in any documented form | partial | Forms, ToolForms | `_check_multi_label_ind`, `_check_feature_ind` (the checks of the index arguments) and the constructor of `FeatureIndexCollection`, and `ToolBox.MultiLabelIndexCollection` (Model/ToolForms.lean, with the binding of arguments of C113), on top of the model of `MultiLabelIndexCollection` (C07-C14). | Decoding after encoding is the identity inside the matrix (C11), so both forms call the same constructor with the same list; the constructor is characterised by C08. | Proved: numbers and tuples are read as the same collection, for label and for feature queries; a collection and its column major numbers stand for the same pairs; FeatureIndexCollection is the label collection. Violations, each proved in general: an empty list or array is refused although an empty collection is accepted, so nothing-labelled-yet can only be said with a collection; a tuple may name a row outside the matrix; the default order of get_onedim_index is not the order in which strategies read numbers; every refusal by FeatureIndexCollection claims that the number of features could not be inferred, also when it was given; the toolbox refuses every array of numbers, because it passes the array under a wrong parameter name. |
| C106 | The analyser tells which results cannot be compared or drawn | partial | PlotCheck | `_check_plotting`, `_check_methods_continuity`, the start of `plot_learning_curves` and the batch size of `_ContentSummary`; performances are finite, NaN or infinite, initial points carry their Python type. Warnings are part of the outcome. | Case analysis and induction over the methods; that the warning never comes is a statement about all lists of methods. | Proved: with StateIO objects added last, plotting goes on exactly if all performances are finite; _check_methods_continuity answers as documented if the initial points are of one type; when a batch size is shown. Violations, each proved in general: the warning is never given (the method is tested instead of called); nothing is checked if lists were added last; the last query of every fold is ignored for the batch size and folds with one query have none; two methods without one batch size count as having the same; the answer depends on the order of the methods if Python and numpy numbers are mixed as initial points. |
| C107 | The progress shown while querying describes the record | partial | Progress | `add_state` with `verbose=True`, `__repr__`, `_refresh_dataline`, `get_current_performance`. A printed text is its row of data; the layout by prettytable is not modelled. Costs and performances are rational numbers; the deviation is given by its square. | Induction over the list of queries from the end: the printings so far are those of the queries without the last one, and one more if the interval divides their number. | Proved for performances that are numbers and at least one initial index and an interval of 1 or more (schedule, contents); independence of the record from printing holds for all performances. Violations, each proved in general: with both initial sets empty or interval 0, add_state raises ZeroDivisionError after having recorded the query; whether NaN is shown depends on the first performance alone, and a later performance that is not a number makes showing fail. |
| C108 | An experiment uses labels only after it has asked for them | partial | Causal | The rounds of Model/Experiment.lean, with the labels as a function that training, the metric and the strategy read at the places where the code reads `self._y`. The learner, the metric and the strategy are parameters. | Relational induction over the steps of a round under two label vectors: everything but the performances stays equal as long as they agree on the labelled set, which only grows. The violation gives a schedule of the thread model of C66 and computes the state it leads to. | Proved for rounds that run one at a time (multi_thread=False or max_thread=1, see C91), for strategies that read the labels of labelled examples only (C88 says which do). Violation: with two threads the rounds share the model, so that there is a schedule in which the first query of round 0 is made with the model trained on the labelled examples of round 1, which may contain test examples of round 0. |
| C109 | Supervised matrix completion approaches the optimum of its objective | partial | Afasmc | `_svd_threshold` and the steps of `AFASMC_mask_mc` over the real numbers, with `np.linalg.eig` and `np.linalg.pinv` as parameters; the loops are those of C59. Not modelled: the retry after an exception of `np.linalg.eig`. | The nuclear norm is defined as the dual of the spectral norm; the shrunk matrix and the difference to the original give a dual certificate. The analysis of accelerated proximal gradient methods: the smooth part is expanded exactly, its curvature bounds the number of doublings, and an energy made of the objective and the distance to the optimum never grows. The optimum exists by compactness. The normal equations follow from one of Penrose's equations. | Proved in exact arithmetic if the eigenvectors that np.linalg.eig returns for a multiple eigenvalue other than 0 are orthogonal. Violation: np.linalg.eig (instead of eigh) does not promise this, and for a multiple of the identity with any other eigenvectors the result of _svd_threshold is not optimal. The early stop at a relative change of 1e-6 is part of the model and has no guarantee beyond the bound for the steps made; of the rounds, usually the first is returned (C59). The rounds all use the same linear model, fitted to the matrix with 0 for entries not observed (line 200 reads X_obr). |
| C110 | Iterative SVD approaches the observed entries and ends | proved | SvdTrace | Model/SvdTrace.lean: the ranks, filled, low-rank and clipped matrices and stops of `IterativeSVD_mc.impute` (query_features.py 340-388) iteration by iteration; `C110_trace` proves that the loop of Model/Completion.lean returns the matrix of this trace after the first iteration that has converged. The truncated SVD is a parameter, assumed to be one (`ExactSvd`). | The spec defines rank, squared distance on a set of entries, best approximation, right singular vectors and truncation by themselves. Proof/EckartYoung.lean proves that the truncation is a best approximation of its rank (the rows of a matrix of rank k lie in a space of dimension k; its orthonormal basis picks up at most the k largest eigenvalues) and that a decomposition exists (spectral theorem). The iteration is an alternating projection: the low-rank matrix of the iteration before has a rank that the next one allows, and clipping projects onto the values within the limits. Sums of the changes telescope, and an iteration that has not converged changes by at least threshold times size. The example runs three iterations of a 2 by 2 matrix and proves best approximation for each. | Real arithmetic; TruncatedSVD is assumed to compute a truncated singular value decomposition exactly (that this is a best approximation of its rank, the theorem of Eckart and Young, and that it exists, is proved). That arpack refuses ranks that are not less than the number of columns is not modelled. |
| C111 | The inner loops of BMDR and SPAL approach the best model and end | proved | Admm, BmdrSelect | one round of BMDR's and of SPAL's ADMM loop (tau/theta, z and delta update), the test for convergence with its constants, the loop with its break, the start; matrices over the reals | existence of a best model: a convex function that grows along the image of the data, reduced to the image (Mathlib's compactness); existence of a multiplier from one-sided slopes of the losses and the normal equations; Boyd's Lyapunov function sum (delta - delta*)^2 / rho + rho (z - z*)^2 falls by the squared residuals and by the strong convexity of both parts, so that the residuals and distances can be summed; from the second round on the cross term has the right sign, which gives the bound for the test; `C111_bmdr_select` and `C111_spal_select` put the steps of C76, C77 and C111 together for the whole `select` | Exact real arithmetic; np.linalg.pinv is any generalised inverse; the kernel matrix of the labelled examples is symmetric and positive semidefinite. MAX_ITER is the parameter n of C111_ends (the code stops after MAX_ITER rounds at the latest); the bound on the number of rounds is explicit but may exceed MAX_ITER. For predictions on examples with weight zero nothing is claimed. Which examples are selected from one model to the next is not covered (C76). |
| C112 | Other names for the two classes and another order of the labelled examples do not change what BMDR, SPAL and QUIRE select | partial | ClassNames | the whole `select` of BMDR and SPAL put together from the parts of C76-C78 and C111 (kernel matrix by examples, QP solver as function of the linear part), the recoding of the labels in the constructor; QUIRE's model of C61 | all variables of the loops are moved along: the model is permuted and multiplied by 1 or -1, the auxiliary variables are multiplied; the inverse and, by its uniqueness, the pseudo-inverse of a permuted matrix is the permuted one; the tests for convergence see norms only | BMDR and SPAL in full for integer labels (exact arithmetic, np.linalg.pinv the Moore-Penrose inverse). Findings: QUIRE does not recode the labels, so that with the classes 0 and 1 the selection changes when the names are exchanged (C112_quire_violation; with 1 and -1 it does not, C112_quire_partial); labels in an array of booleans all become 1 in BMDR and SPAL (C112_bool_violation). |
| C113 | Strategies get the parameters the user has passed | partial | Params | Model/Params.lean: Python's binding of positional and keyword arguments to a signature (with TypeError for names bound twice, unknown or missing), the signatures of the constructors in query_labels.py, what they pop from `**kwargs`, which attributes they set, their checks of values; the branches of `set_query_strategy`, the construction per round, the options of `select`, `get_query_strategy`, `set_performance_metric`. Values are strings, rationals, booleans and objects not looked into. | the spec is the table of documented parameters and defaults (Spec/Params.lean), independent of the signatures; case distinction over the strategies with lemmas about lookup in dictionaries from which names have been popped | All parameters of the constructors, for all strategies known by name, through the experiment and through the toolbox. Findings: an experiment silently ignores a parameter the strategy does not have, a misspelled one for instance (C113_unknown_violation), and so do the toolbox and the constructors of QueryInstanceRandom, QUIRE, BMDR, SPAL and LAL (C113_toolbox_violation); the others refuse it (C113_toolbox_refused). The option qp_solver of BMDR and SPAL cannot be set in an experiment: the code reads qp_sover (C113_qp_solver_violation). Parameters given to set_performance_metric are dropped (C113_metric_violation). |
| C114 | The learning curve of an experiment is the mean performance after each number of queries | proved | Curve | Model/Curve.lean joins the model of the experiment (C91) to that of the analyser (C73): the performances the analyser reads from the StateIO objects of the rounds. Spec/Curve.lean says from the environment alone which examples are labelled after q queries and what the performance after q queries is. | Induction on the run of a round: its record holds, in order, the performances after 1, 2, ... queries. With C91 every round is its own run; with C73 the curve is the mean over the rounds. C23 gives the number of queries for num_of_queries, with a lemma that a query of at most b examples takes at most b from the unlabelled set. | For runs with one round at a time (multi_thread=False, or max_thread=1); with several threads the model is shared (C91_shared_model_violation). The performance of the model is a number (metrics that return an array are not drawn). |
| C115 | The knapsack accepts costs and capacities that are not integers | partial | KnapsackFloat | Model/KnapsackFloat.lean: the knapsack of Model/Knapsack.lean with costs and a capacity that are integers or floats, where a float is no index of an array and no dimension, and the selection of the two strategies with numpy's conversion of the costs to floats. | A float cost above the capacity behaves as the integer cost capacity + 1, so C44 applies; a float cost within the capacity raises at the column of the capacity at the latest, shown by induction on the items. | Best selection proved if every cost within the capacity is an integer (floats above the capacity may occur) and the capacity is an integer. Violations, each proved in general: a float cost that is not above the capacity makes the call raise IndexError, also 2.0 (C115_float_violation); a float capacity, the documented type, raises TypeError (C115_capacity_violation); in QueryCostSensitiveHALC and QueryCostSensitivePerformance one class with a float cost makes all costs floats (C115_strategy_violation). |
| C116 | The tables of past queries show what was asked and answered | proved | History | `Oracles.full_history` and `__repr__` with their loops, dictionaries and possible exceptions, `full_history` of both repositories; any sequence of calls with a log of what was asked and answered | the history is the log (`tracked`, by induction over the calls: names stay known, one oracle answers one query in one way), then closed forms of the loops (`histLoop_ok`, `reprLoop_ok`) | The values in the tables are modelled, not their text. Oracles are functions of the query, so that an oracle named twice in one query gives the same answer twice; full_history shows it once and counts it twice. Lists given by the caller are values: changing them after the call is not modelled. |
| C117 | The same results in every accepted form make the same analysis | partial | AnalyserForms | `_type_of_data`, `StateIOContainer` (objects, paths, `extract_matrix` with one key or several), `add_method` of both analysers, `get_extracted_data`, `get_methods_names` and `__repr__` are in Model/AnalyserForms. A StateIO object is its initial point and the cost and performance of each state, where each key may be absent. The summary is a parameter that can raise, because Model/Analyser and Model/CostCurve have it. | Spec/AnalyserForms says what the curve and the pairs of a fold are by the maps of the keys. Induction on the folds and states shows that the extraction gives them, or ValueError if a key is absent; the dictionary lemmas show that other methods are not changed. | Holds for every accepted form and content. Partial because get_methods_names reads an attribute that is never set and always raises AttributeError (C117_names_violation), the analyser of queries refuses the documented lists of (x, y) tuples (C117_tuples_violation), a list that begins with a path is refused though a container reads paths (C117_paths_violation), an analyser without methods cannot be printed (C117_empty_violation), and a method whose summary raises stays half added (C117_half_added_violation). |
| C118 | With a built-in kernel every matrix that is inverted is invertible and every problem that is solved is convex | proved | Kernels | The choice of the kernel, its defaults and the checks of shape and type (constructors of QUIRE, multi-label QUIRE, BMDR, SPAL; `calc_kernel_matrix`), the computation of the three kernels of sklearn, and `inv` with its LinAlgError are in Model/Kernels. | Schur products and the series of exp show that the kernels are positive semidefinite; then regularised matrices and their blocks are positive definite. Convexity by the expansion of the quadratic form; convergence by C111. | Exact real arithmetic; the kernels of sklearn are modelled by what they compute. Outside the statement: negative parameters are accepted, and then the constructor of QUIRE can fail (C118_negative_violation). |
| C119 | Expected error reduction asks for the examples after which the model is expected to be surest | proved | Eer | `log_loss` with NaN and `select` of QueryExpectedErrorReduction with the retrained models are in Model/Eer; learning is any function `fit` of the training list and any function `predict`. | The loops are sums (induction); the bound of the entropy by log x <= x - 1; NaN is the top element of the order. Spec/Eer defines the expectation over the pool as a set. | Exact real arithmetic with NaN. Outside the statement: a probability of zero makes log_loss NaN (0 times log 0), and NaN is sorted last, so a query after which the model would exclude a class for some example is not made while there are enough others (C119_zero_violation), even if it is the best one (C119_best_left_out_violation). Other class labels: see C56. |
| C120 | Everything an experiment saves in a directory has its own file | proved | Files | The file system with directories and files, and everything that writes to it: the path logic of StateIO, ToolBox, save_oracle, aceThreading and split_save, and split_load, are in Model/Files. Contents are a parameter; a write is one step. | Names of different rounds differ because the decimal text of integers is injective; every save is a write to the file of one role (Spec/Files), and induction on the sequence of saves gives the last value of each role. | Files are written whole at once (crashes: C53). Outside the statement: if the path is not a directory that is there, all rounds are written to one file and only the last survives (C120_one_file_violation); two methods compared with one toolbox get savers with the same files, so the results of the first are lost, and get_stateio with saving_path=None saves though it is documented not to (C120_methods_violation); split_load can mix two splits (C120_mixed_split_violation). |
| C121 | Larger batches extend smaller ones, and dividing the queries into batches makes no difference where the choice is sequential | proved | Batches | The models of the strategies' `select` as for C01, C45, C94, C58 and C119; nothing new is modelled. Spec/Batches says what nested selections are. | Slices of one argsort are nested; the loops of MMC and Adaptive by induction; the remembered distances of coreset are determined by the set of centres, so equal sets make equal choices step by step; a greedy choice with the tie rule of C94 is unique. | The selected sets are nested for the scoring strategies; the coreset and graph density results use C45 and C94. For density weighting a batch beyond the pool returns fewer examples (an example in the file, in general C31). BMDR and SPAL solve a joint problem for the batch and the random strategies draw anew: nothing of the kind is claimed for them. |
| C122 | The metrics agree on which predictions are perfect | proved | Perfect | The metrics as modelled for C37-C40, C64 and C65; Spec/Perfect says what a perfect prediction is. | From the characterisations: a weighted mean of terms that are bounded by other terms equals the mean of these exactly if all terms of positive weight do; counting of rows and cells for Hamming and zero-one loss by induction. | Uses the characterisations C37-C40, C64, C65. one_error is left out, as it is not an error (C63); so are weights of the average precisions (C65). |
| C123 | The coordinates of the features do not matter where only distances or inner products are used | proved | Geometry | The distances of sklearn as coreset and density weighting use them are in Model/Distances (real numbers); the strategies as for C45, C55 and C118. | Q Q^T = 1 keeps inner products; the distances are multiplied by one number; the loops of coreset run in parallel with vectors that are ordered alike; the scores of density weighting are multiplied by one positive number. | Exact real arithmetic (for rounding see C97). Graph density is left out: its densities exp(-d * gamma) with gamma fixed by the number of features do depend on the unit of the features. |
| C124 | Compared methods start in one point and meet in the end | proved | Meeting | The loop of AlExperiment and the analyser as for C80, C91 and C114; nothing new is modelled. Spec in the file: `SameTask`, `OrderFree`, `BatchStrategy`, `QueriesAll`. | The invariant that the labelled and the unlabelled set partition the split holds along every run; a run without criterion stops only when the unlabelled set is empty; the number of queries by induction over the loop; the curves from C114. | Builds on C80, C91 and C114. The order of the labelled examples differs between methods, and a learner that depends on it need not end at the same height; the plot interval has to divide the numbers of queries, as otherwise the curves stop before the end (C73). |
| C125 | The unit of cost does not matter | proved | Units | Knapsack, POSS, the cost-sensitive strategies, StoppingCriteria, CEAL and the analyser over cost as for C44, C49, C50, C71, C21, C58 and C75; nothing new is modelled. | Homogeneity of each step: the table of the knapsack in the new unit has the rescaled entries at the rescaled capacities, so the traceback takes the same items; the loops of POSS, random selection and interpolation run in parallel. | Exact arithmetic. Outside the statement: HALC and Performance themselves depend on the unit of cost, because the budget is also taken as the number of candidates of a label, less one; with costs and budget multiplied by two or more the same pool gives a better selection (C125_strategy_violation). CEAL raises smaller costs to 1/10000. |
| C126 | Every worker of aceThreading works on the sets of its round, and has them to itself | proved | Workers | Model/Workers: the sets passed in their forms, the collections as objects in a memory with addresses, the copies made by aceThreading, StateIO and get_workspace, recovery, the arguments of the threads, the check of the target function. A worker is any function of its variables, its sets and its saver, applied step by step; a schedule is any list of steps of workers and changes by the program. | The addresses of the tasks are new and pairwise different (induction over the rounds); a step changes only its own addresses, so the view of a round after any schedule is that of its own steps only (induction over the schedule). | The workers reach shared objects (examples, labels, global_parameters) for reading only. Outside the statement: an empty labelled list together with a list of tuples makes two index collections, the unlabelled one of rows (C126_cold_start_violation); StateIO infers the number of labels from each list by itself, so a queried label that the labelled list does not have makes the workspace fail for good (C126_inferred_violation); a second start_all_threads on the same object raises RuntimeError (C126_second_start_violation); parameters after * are not seen, and a function that requires a further parameter is accepted though every thread fails (C126_target_violation). An exception in a worker is only printed by Python, and start_all_threads returns normally; save() before the start raises AttributeError. A list together with a collection is not modelled. |
| C127 | Better predictions never get a worse score | proved | Improve | The metrics as for C37 to C40 and C64 to C66; nothing new is modelled. Spec/Improve: what better scores and better labels are. | The pair statistics are monotone in every score; the coverage is reached at the lowest relevant score; with distinct scores the average precision is a sum over the relevant labels in order, and the j-th highest relevant score does not fall. | Builds on C37 to C40 and C64 to C66; micro_auc_score as far as C66 goes (it is the mean over the classes; no ties between positive and other examples of a class). Outside the statement: with equal scores the two average precisions can fall when the score of a relevant label is raised (C127_lrap_ties_violation, for every number of labels). one_error is left out, see C63. |
| C128 | Scaling forgets the units | proved | ScaleUnits | The scalers as for C36 and C52; nothing new is modelled. Spec in the file: a matrix in other units. | The least and the greatest number of a column move with the unit; a scaled column is the column in another unit (constant columns included), which gives scaling twice from the independence of units. | Exact arithmetic. Outside the statement: StandardScale does depend on the unit: measured in a unit that makes the numbers u times as large the standardised numbers are u times as small (C128_standard_unit_violation), and applied twice it gives the differences to the mean in the original unit (C128_standard_twice_violation), both because it divides by the variance (C52). |
| C129 | The progress table of aceThreading can be believed while the workers run | proved | Display | Model/Display: _if_refresh and the polls of the waiting loops, divmod and the format of the elapsed time, and the accesses of one line of the table to the list of states, which may change between any two of them. Spec/Display: reading a clock text, workers that only add. | Induction over the polls; digits read back (Nat.ofDigits_digits) and floor arithmetic; with a growing list every element read is the one at the moment of the second length. | Exact arithmetic; the layout of the table and the rounding to three digits are not modelled. Outside the statement: the time of a round goes on after its thread has ended (C129_ended_violation); a worker that takes states back (recover_workspace, pop) while its line is made can end the main program with IndexError (C129_pop_violation); the number of queries is read before the performance, so the two can differ by the states added in between (C129_moment). |
| C130 | The shaded area shows one standard deviation of the folds around their mean, and changes nothing else | proved | Shade | `Model/Shade.lean`: the loop of `plot_learning_curves` with `std_area=True` (`drawings`, `fill`) and the same over costs (`drawShaded`), performances in ℝ; the standard deviation is the square root of `var` of `Model/Analyser.lean`. The claim is stated with `Spec.Column` (the values of all folds at one position), `Spec.band` (mean minus and plus the root of the variance) and `Spec.OnPolyline`. | `C130_lines` and `C130_cost_lines` compare the results (including exceptions) with the models without areas by induction over the methods; `C130_area`, `C130_start` and `C130_cost_area` give for every point of a line the values of the folds of which it is the mean; `C130_between`, `C130_folds` and `C130_order` are facts about mean and variance of lists. `C130_interval_violation` and `C130_shift_violation` show where line and area come apart. | Defects on record as theorems: with a start point and plot_interval k > 1 the mean of the first queries is drawn at k and its area at 1; with x_shift other than 0 the lines over costs are moved and their areas are not. |
| C131 | A vote is right when most of the oracles are, and more right answers never make it wrong | proved | VoteRight | `majorityVote`, `voteOfList` and `voteOfOracles` of `Model/NoisyOracles.lean`. | From the uniqueness of the winner (C46) and counting: two different labels together are given at most as often as there are answers; changing answers to the right label raises its count and no other. |  |
| C132 | Other names for the classes change neither votes, nor the oracles asked, nor splits, nor what a committee selects | proved | VoteRight | `majorityVote` and `IE.select` of `Model/NoisyOracles.lean`, `split` of `Model/Split.lean`, `qbc` of `Model/Select.lean`. | The winner of a renamed list is the renamed winner; the state of IEthresh with renamed labels makes the same step (`C132_iethresh`), so by induction the same run (`C132_iethresh_run`); numbers of different labels and counts do not change under one-to-one renaming. | For the metrics see C96_class_names. |
| C133 | Evener predictions count as more uncertain | proved | Even | `uncertainty`, `entropyScore`, `leastScore`, `marginScore` of `Model/Select.lean` over ℝ with the real logarithm. The claim is stated with `Spec.Transfer` and its transitive closure `Spec.Evener`. | v log(v + 1e-9) is strictly convex on the positive numbers, being the sum of u log u and -1e-9 log u for u = v + 1e-9; so every move raises the score (`two_terms`), and Jensen's inequality gives the maximum at equal probabilities. The largest entry cannot grow by a move. The rest follows from the selection by scores (C43). | On record as a theorem: the margin does not see evenness beyond the two most likely classes; moving probability from the second to the third makes the prediction evener and its score lower (C133_margin_violation). |
| C134 | The observed entries may be given to matrix completion in any documented form | proved | CompletionForms | `Model/CompletionForms.lean`: `AFASMC_mc` (`readOmega`, `afasmcMc`) on top of the collections of `Model/MultiLabel.lean` and of `afasmc` of `Model/Completion.lean`. The claim is stated with `Spec.marked`, the matrix that is one at given cells, and `columnMajor`. | The decoded collection holds exactly the pairs (C105), the loop that fills the mask marks exactly the pairs of the collection (`maskLoop_spec`), and keeping and non-interference follow from C47. | The numerical part of the completion is a parameter (see C59 and C109). Outside the statement: an example outside the matrix is not noticed when tuples are read, so that one beyond the last raises IndexError and a negative one is counted from the end (C134_row_violation); nothing observed can only be said with a collection, and a completely observed matrix is accepted as indexes though refused as a mask (C134_bounds_violation). |
| C135 | The names of the examples do not matter | proved | Names | `IC` and its calls, `StateIO.getWorkspace` and `totals`, `Oracle.new` and `queryByIndex`, the selections of `Model/Select.lean`, `randomRound` of `Model/Split.lean`. `Spec/Names.lean` says what a renaming is and what renamed collections, calls and records are. | Simulation: each function commutes with the renaming (`C135_call`, by cases on the call and induction on its loops; `C135_program`, by induction on the program). For collections that agree up to order: equality test, membership, removal of the first equal element (which is filtering, as names occur once) respect permutations. | The constructor of an IndexCollection sorts by name, so a renamed collection may have another order (C135_construct), and then pop, draws by position and removing a collection from itself take other examples. With all_class=True a split uses names as positions of y (C33). |
| C136 | Splits that ask for all classes end | proved | Ends | `split`, `splitMultiLabel` and `splitFeatures` of `Model/Split.lean` on one round. `Spec/Ends.lean` says what the probability that `m` draws are not enough is and what it means to return with probability one; a draw is a uniform permutation (`Spec.shuffleBy`). | Not having returned is equivalent to all draws being bad, so that the number of sequences is a power; a good draw exists because a representative of every class can be completed to a set of the right size, and every arrangement is some permutation of the instances. | Default instance indexes (or any positions of the labels, C136_possible); labels without negative entries for matrices. The room is the number of labelled examples of the split, rounded twice, which can be less than what the check of the code computes (then the call is endless, C136_no_room). Outside the statement: split_multi_label raises the number of labelled rows to one only before the loop, so that with a single label and a share that rounds to zero one unlucky first draw makes it endless (C136_unlucky_violation). |
| C137 | Examples that were not selected could have been left out of the pool | proved | LeaveOut | `uncertainty`, `qbc`, `qbcKL`, `qbcMat` of `Model/Select.lean` and `Model/Committee.lean`, `ceal` of `Model/NoisyOracles.lean`, with a model (committee, oracles) that answers for each example. `Spec/LeaveOut.lean` says what a strategy can select (over all ways of sorting) and what it is to be consistent on smaller pools and to work in pieces. | What can be selected is characterised: the sets of the right size none of whose members is beaten by an example outside (`Best`; for the converse a way of sorting that puts the given examples last is constructed). Both statements hold for `Best` of any transitive relation. CEAL: the first maximum of the table is the first maximum of every sublist that contains it. | Batch size positive. Committees whose members return matrices of zeros and ones are outside the statement: the outputs for the whole pool are checked to contain both numbers, so that a smaller pool can raise ValueError (C137_committee_matrix_violation). Strategies whose scores look at other unlabelled examples (expected error reduction, LAL, density weighting, coreset, graph density, BMDR, SPAL, QUIRE) are not consistent in this sense. |
| C138 | A weight is a number of repetitions, and the score of a test set is the mean of the scores of its parts | proved | Parts | `accuracyScore`, `zeroOneLoss`, `hammingLoss` of `Model/Metrics.lean`, `coverageError`, `labelRankingLoss`, `lrapScore`, `averagePrecision` of `Model/RankingMetrics.lean`. `Spec/Parts.lean` says what repeating examples, joining weights and pooling scores is. | Each metric is shown to be an average over the examples of a function of one example (`accuracy_vec`, `hamming_mat`, `lrap_avg`, …); averages of repeated and of joined lists are computed by induction. | For zero_one_loss only normalize=True is meant (see C37 for False). The weights of label_ranking_average_precision_score are outside the statement (C65_lrap_weights_violation), and so are those of average_precision_score, which ignores them (C138_precision_weights_violation). |
| C139 | Reversed scores and exchanged classes give the complementary score | proved | Parts | `rocAucScore`, `labelRankingLoss` of `Model/Metrics.lean`; `Spec.pairStatistic` and `Spec.wrongPairs` of C38 and C40. | By C38 the area is the mean credit of the pairs, and the credits of a pair and of the exchanged pair add up to one (`credit_swap`); by C40 the loss counts pairs, and without ties a pair is wrong in exactly one of the two directions. | Built on C38_auc and C40_row; floating point rounding is not modelled. |
| C140 | Greater limits continue the same run: they never change what was done before | proved | Limits | `Stop`, `mainLoop` of `Model/Stopping.lean`, `session` of `Model/Session.lean`, `randomSelect` of `Model/CostRandom.lean`, `knapsack`, `costSelect` and `chosen` of `Model/Knapsack.lean`, `Model/CostSelect.lean` and `Model/NoisyOracles.lean`. | A relation `Later` between two stopping criteria (the second does not stop before the first) is an invariant of `update_information` (`later_update`); as long as the first run goes on, the second does the same steps (`loop_later`), and what it does afterwards only adds states and examples (`loop_onward`). The selections are by induction over the draws and from the optimality of C44 and C71. | Percentages are between 0 and 1 (others raise or never stop, see C21). For random selection and the runs both calls have to return; what is labelled must not be looked at by the strategy through the criterion. With costs of zero QueryCostSensitivePerformance is outside the statement, because it offers the knapsack fewer candidates per label than the budget. |
| C141 | The order in which the labels are listed does not matter in multi-label selection | proved | LabelOrder, MLQuireOrder | `mmcSelect` of `Model/Peek.lean`, `select` of `Model/Adaptive.lean`, `audi` and `auro` of `Model/MultiLabelSelect.lean`, `mark` of `Model/Hierarchy.lean`, `udes` of `Model/CostSelect.lean`; `Spec/LabelOrder.lean` defines an order of the labels as a permutation of the first numbers and the reordered rows. | MMC and the adaptive strategy: training and answering commute with the order of the columns (`train_reorder`, `answers_perm`), and the scores are functions of the sorted row or of sums over the row (`mmcScore_perm`, `uncertainty_perm`, `rowErr_perm`). AUDI and AURO: both selections are optimal (C48) for the same criterion (`inconsistency_old`, `auro_inst`), and without ties the optimum is unique. Marking: C70_mark_partial for both orders. Multi-label QUIRE (`Props/MLQuireOrder.lean`): the sorted listings differ by permutations of the places (`places`), under which the kernel matrix, its inverse and the sums without one place are reindexed (`value_reorder`); this holds in spite of the wrong inverse of C89. | For AUDI, AURO and multi-label QUIRE without ties (equally informative examples or labels are told apart by position); for multi-label QUIRE also if the set of known pairs is iterated in sorted order (otherwise labels are attributed to wrong pairs, C89_order_violation); for MMC and the adaptive strategy without restrictions. HALC is not part of the statement: C141_halc_violation shows that its informativeness does depend on the numbering, a leaf that is an only child counts if it is label 1 and not if it is label 2 or later (see C72). |
| C142 | AUDI turns to examples about which little has been asked, and epsilon only guards against division by zero | partial | AudiSpread | `audi` of `Model/MultiLabelSelect.lean`. | Every candidate has an unlabelled label, so that the divisor is at least one and the maximum with epsilon is the divisor itself; the comparison of two examples follows by cross-multiplying the criterion of C48_audi. | The code divides by the number of labels not asked for (the mask of the unlabelled pairs, multi_label.py line 582), which is at least 1 for every candidate: epsilon up to 1, so also the default 0.5, has no influence (C142_epsilon), and of equally deviating examples the one with more labels known is asked about (C142_spread_violation). What holds is that the selected example has the greatest deviation if equally many labels are left of all, and that a smaller deviation wins only if fewer labels are left. |
| C143 | What is selected stays selected when it becomes better | proved | StaySelected | `uncertainty` and `qbc` of `Model/Select.lean`, `ceal` and `chosen` of `Model/NoisySelect.lean` and `Model/NoisyOracles.lean`, `knapsack` of `Model/Knapsack.lean`; `Spec/StaySelected.lean` defines what may change and what it means to stay selected. | An element of an optimal batch whose score increases still has fewer than k competitors that are better or equal (`largest_stays`, `smallest_stays`); evener votes have a greater vote entropy by the strict convexity of x log x, move by move. CEAL is the first maximum of a product. For the knapsack `rows_stack` and the traceback give a lexicographic characterisation of the selection returned (C143_budget_ties), from which the changes of one value or cost follow by comparing sums. | The improvement of an example or oracle is strict for the uncertainty measures and the committee (otherwise a tie may be resolved otherwise); for entropy the probabilities are positive. IEthresh: scores that are not negative and an epsilon between 0 and 1. Which of several equally valuable selections the knapsack returns is C143_budget_ties. |
| C144 | Metrics that measure the same thing agree with each other | proved | SameMeasure | `labelRankingLoss`, `coverageError`, `lrapScore`, `averagePrecision`, `rocAucScore`, `microAuc`, `hammingLoss`, `accuracyScore` and `zeroOneLoss` of `Model/Metrics.lean`, `Model/Ranking.lean` and `Model/RankingMetrics.lean`; `Spec/SameMeasure.lean` defines the transposed matrix. | Both sides are reduced to counts of pairs by C37–C40, C64 and C65; the rank of a single relevant label is one plus the number of irrelevant labels that are not below it (`one_row`), and the inequality between the means of ranks and inverse ranks is the inequality of Cauchy and Schwarz. | For 0/1 labels. With ties label_ranking_loss counts a tie as a whole mistake and roc_auc_score as half of one, so only the inequality holds (C144_loss_with_ties). The weights of micro_auc_score do not matter when the scores of a column are distinct, because they are not used (C38). For examples with all or no labels the two average precisions differ (C65_skipped_violation). |
| C145 | It makes no difference whether something is done in one call or in several | proved | Calls | Nothing new is modelled: the loops of `IndexCollection`, `MultiLabelIndexCollection`, the oracles, `Oracles`, both repositories and `StateIO`. Spec/Calls: two calls in a row, two answers in turn, a repository without its record of calls, oracles asked one by one. | Every loop over a concatenation is the loop over the first part and, if it has not raised, the loop over the second, by induction; the counters of calls commute with storing (`eAddMany_content`). | Pairs: for collections with a known number of labels and non-empty parts. Lists given to oracles and repositories have fitting lengths. If an entry is refused, the calls after it are not made. |
| C146 | The order in which things are given does not matter | proved | AnyOrder | Nothing new is modelled. | Uniqueness: what is returned is determined by the set of rows, entries or selections (theorems of C03, C16, C25, C29, C30), and permuted lists have the same ones; the totals are sums. | Repositories: histories without an index or an example stored twice (C29); matrix repositories: as constructed. An empty IndexCollection takes its type from the first index, so [1, True] is accepted and [True, 1] refused (example in Props/AnyOrder). |
| C147 | Stopping criteria that say the same thing give the same run | proved | Criteria, CriteriaExp | Nothing new is modelled: `session` of `Model/Session.lean`, `mainLoop` and `Stop` of `Model/Stopping.lean`. `Spec/Criteria.lean` lists which settings have to agree and what the two runs have to share. | An invariant of the loop relates number of states, recorded cost and size of the unlabelled set (one example per query: states = labelled; one price: cost = price times labelled); under it both criteria hold at the same time, so that the two loops go through the same states by induction on the fuel. | Percentages between 0 and 1, positive prices, and both sets non-empty at the start. AlExperiment records no costs, so every positive cost_limit is the same as no criterion (part of C147_experiment). |
| C148 | What was given can be taken back | proved | Undo | Nothing new is modelled. | Difference after union and union after difference in terms of members (C03, C08); for dictionaries erasing after setting a new key is the identity; masks that drop only the last row; popping the last state and C16. | Pairs: collections with a known number of labels, and not the one form that C08 shows to be misread. Element repositories: the index and the example are new (an index stored twice is not undone, see C29). Matrix repositories: the label and example have the shape of the others. |
| C149 | Doing it twice is doing it once | proved | Twice | Nothing new is modelled. | Each second call is reduced to the state after the first: members already present are skipped (C03, C08), setting a key to its value leaves the dictionary as it is, a mask without hits keeps every row, and a column with minimum a and maximum b is fixed by the affine map. | Accepted calls. ElementRepository.add is outside the statement: adding the same entry again lists and charges it again (C149_repository_violation). StandardScale is outside it too: it divides by the variance, and applying it again returns the column minus its mean (C149_standard_violation). Discarding an index from an ElementRepository: the index is stored once. |
| C150 | A guess gets the score of chance | proved | Chance | Nothing new is modelled; Spec/Chance defines a shuffled list and the mean over all permutations. | The area is the pair statistic (C38); over all permutations each ordered pair of positions gets each ordered pair of scores equally often, and exchanging the two positions exchanges the credits, which add up to 1. Accuracy: each prediction comes to each place (n-1)! times. The ranking loss is one minus the area (C144). | Accuracy and AUC of vectors without sample weights; the mean over orders is over all permutations, each counted once. |
| C151 | LAL learns from the file of its mode, and downloads it once | proved | LalFiles | `Model/LalFiles.lean`: download_data, train_selector_from_file and the constructor of QueryInstanceLAL over files as functions from paths to contents; the answer of the server is given with every call, np.load and the fitting are parameters. Left out: printing, the announced length (assumed not 0), and whether `requests` is installed. | An invariant over sequences of calls: existing files stay, only the two names are new. With it a later construction reads the content the first one has read. The last training: induction over the calls with the relation `Trains`, which lists the successful ones. | The fitted regressor is random; a selector stands for the data it was fitted to. Outside the statement, proved as C151_broken_violation: if what the server sends cannot be read (a connection that breaks, or an error page, as the status is not looked at), it stays in the place of the file, is never downloaded again, and every later construction with that mode and directory fails until the file is removed by hand. |
| C152 | More budget, more rounds and more choice never make the result worse | proved | MoreIsBetter | Nothing new is modelled. | Optimality (C44, C71) turns what was selected before into a competitor: selections extend to more items and stay within the greater budget. POSS: what was returned has been generated (an invariant of the population) and is generated in the longer run too (C49). Coreset: the smaller batch is a prefix of the larger one (C121). Pools: what can be selected are the best of the pool (C137); if one as good as t is left out, all selected are. | POSS and AFASMC: for the same random draws and the same sequence of iterates, continued. The number of inner steps is that of one round of the outer loop (which objective the outer loop keeps: C59). |
| C153 | A recovered multi-thread experiment is set up as the one that crashed | proved | ThreadsObject | `Model/ThreadsObject.lean`: the attributes set by the constructor, start_all_threads up to the first thread, `__getstate__`/`__setstate__` and the constructor call of recover. The round-wise part of recover and the files are in `Model/Threads.lean`. | Case analysis of the constructor: its checks succeed again on what it has stored, and abspath is idempotent. Savers by induction over the rounds. | os.path.abspath is assumed to leave absolute paths as they are. Outside the statement, proved as violations: the global parameters are in the breakpoint file, but recover does not pass them on, so start_all_threads() of the recovered object without them gives None to every worker, and the recovered object cannot be saved before it is started (C153_globals_violation); an experiment of no rounds cannot be recovered (C153_no_rounds_violation). |
| C154 | Every score and every uncertainty lies in its documented range | proved | Ranges | The metrics of `Model/Metrics.lean` and `Model/RankingMetrics.lean` and the scores of `Model/Select.lean` and `Model/Committee.lean` (logarithm of the reals). | A weighted mean lies between bounds of its values; bounds for one sample from the specifications of C37, C40, C63-C67. Average precision and averaged area directly from the loops, so that ties are included. Entropies by log x ≤ x - 1 (Gibbs), the divergence by Jensen's inequality (C102). | Real numbers instead of floats; the label ranking average precision is without weights (with weights C65 applies). The lower bounds of the entropies are -1e-9 and not 0, because the code adds 1e-9 inside the logarithm: a unanimous vote has a negative entropy (C154_negative_violation). |
| C155 | With the simplest setting the general method is the simple one | proved | Plain | Nothing new is modelled. | Knapsack: by optimality (C44) an exchange of a taken item for a better one would be affordable. Density: the weights are all 1. IEthresh: the bounds are not negative (C57), so all reach 0. Weights: from the specifications C37, C40 and C63-C65. Curves: with cost 1 the corners of a fold lie at the numbers of queries, so the height at such a number is the performance after that many queries (C75, C73). | The count of taken items is for items of positive value (worthless ones may be left out). Density weighting: the batch is smaller than the pool, and for the entropy all probabilities are positive, since only uncertainty sampling replaces the others. The curves over cost end one query before the end of the shortest fold, because np.arange leaves its end out (C75). |
| C156 | A call that raises leaves things as they were | proved | Refused | Nothing new is modelled; the models return the object as it is when the call raises. | Case analysis of each call. Multi-label collections: what the bulk calls iterate over has been checked by flattern_multilabel_index, so that in a set no later step can raise, and in a list container no step changes anything. Lists of entries: induction, the first refused entry ends the loop. ElementRepository: with or without examples all rows are accepted or the first one is refused. | IndexCollection is in C04 (an update has stored the elements before the offending one). Costs of oracles are assumed to be arrays that can be added up, and the summary of results that could be read not to raise. Outside the statement, proved as violations: a dict given to add_state with all three keys is stored although the call raises (C156_dict_violation); without the cost it needs an oracle keeps the example of a refused entry (C156_oracle_violation); costs that cannot be added up leave a query in the history that is not charged (C156_oracles_violation); a strategy whose constructor raises leaves its name (C156_strategy_violation), a failed split_AL the mark of a split (C156_split_violation), a container that cannot be read the claim that all results are savers (C156_analyser_violation). MatrixRepository.add stores the label before it misses the example (C30). |
| C157 | A few examples do not count for more than their share | proved | Share | Nothing new is modelled. | A weighted mean of values in an interval changes by at most the length of the interval times the weight of the changed terms; the metrics are such means by C37, C39, C40, C63-C65. Area: first the positive and then the negative scores are exchanged in the pair statistic of C38. Vote: every count changes by at most the number of changed answers (C131). Selection: if more were replaced, one unchanged example would have been replaced by another unchanged one, in the wrong order (C137). | Rational numbers instead of floats. The one error is the one that is computed (C63). Ties among unchanged examples are excluded for the selection, because the order of equal scores is not determined. Label matrices have at most two different values (C37, C39). |
| C158 | The same experiment can be written in several ways | proved | SameRun | Nothing new is modelled: the loop of C23, the rounds of C91 and the script of C80. | Simulation: a relation between the two states (same sets, same criterion, records with the same queries) is kept by every iteration; the workspace computed from the record depends on the recorded selections only, so that update_information gives the same unless the criterion is cost_limit. | Strategies that do not look into the repository; the script is the loop of the examples (C80). For a round of AlExperiment the performances of the script are those recorded. The exception, cost_limit, is C24_cost_limit_violation. |
| C159 | How the questions to a multi-label oracle are grouped does not matter | proved | Grouped | Nothing new is modelled. | What the oracle says about a pair is the answer to the index (e, l); every answer to a longer index is shown to be the list of the answers to its pairs, by induction over fancy indexing. A call is then a list of pairs related to a list of answers, one to one, and permuting the pairs permutes the answers. integrate_multilabel_index keeps the pairs (C09) and names each once. | Legal indexes: labels within the width of the oracle; for flattening at least one pair. The statement about never costing more needs costs that are not negative. Oracles whose cost of an example is a list and not an array answer no such query at all (C27_list_costs_violation). |
| C160 | The results of several experiments can be pooled | proved | Pooled, PooledCost | Nothing new is modelled: the summaries of C74 and the curves of C73 and C75. | Mean and variance of a concatenation are computed from those of the parts (the sum of squares around any centre is expanded, by induction). For the curves the specification C73_curve_partial is used for all three results: the mean after q queries over F ++ G exists exactly if those over F and G do, and is the pooled one. Over costs C75_curve_partial is used; a polygonal line whose corners run to the right has one height at every place (induction over the corners). | Exact numbers instead of floats. All folds have the same length: otherwise the table cuts all folds to the shortest (C74), also those of the longer experiment. Against the number of queries only plot_interval is varied. Over costs the initial points of the two experiments agree or a start point is given, because the code takes the initial point of the last fold for all (C75_initial_point_violation). |

## Testing against wrong programs

`seeded/LOG.jsonl` has one line per attempt: the definition edited in a scratch copy, the edit (a realistic bug), the claim it
breaks, the theorems that failed to compile, and the theorems tightened in answer to a surviving edit.
