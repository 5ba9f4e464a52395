# Design

Formal model of FastPGM (`/repo`, read as text) in Lean 4, under `lean/Verif/`.

## Layout

* `Verif/Model/*.lean`  – the model.  Each definition cites the file and lines it transcribes and says where it simplifies.
* `Verif/Spec/*.lean`   – small specifications in ordinary mathematical terms; they do not use the model's helpers.
* `Verif/Lemmas/*.lean` – helper lemmas.
* `Verif/Props/*.lean`  – the property theorems (named `Cxx_...`), each with an `example` meeting its hypotheses.

## Conventions of the model

* C++ `int` used as an index or count is `Nat` (or `Int` where it can be negative).  Overflow of 32-bit integers is modelled separately (`Model/Int32.lean`, C80), for the sizes and
  indices of tables only.
* `double` is an arbitrary linear ordered field `K` (theorems hold for all of them, in particular ℚ and ℝ).  Rounding is modelled
  separately for the junction tree (C84), parameter learning (C107) and the independence tests (C119); elsewhere rounding, NaN and infinities are not modelled; a division whose divisor can be zero in the code is either excluded by a stated hypothesis or is a
  distinct outcome.
* Undefined behaviour, `exit(1)` and an uncaught exception are distinct outcomes: `Except Fault α` with
  `Fault = ub | exit | throw | nan` (`nan`: a NaN where a number is used).
* `std::set`/`std::map` are strictly sorted lists or finite sets/functions; pointers to nodes/cliques are their indices.
* OpenMP loops: those of the junction tree are modelled access by access with threads that interleave (C85); all other models use the
  sequential loop, or a fold over an arbitrary permutation of the iterations (PC-stable).
* Randomness (`Random01`, sampling) is an arbitrary input stream.  The χ² distribution function is an arbitrary function.

## Plan for each property

| id | what is modelled | how it is proved |
|----|------------------|------------------|
| C01 | `ConstructCumLevels`, `GetConfigValueByTableIndex`, `GetTableIndexByConfigValue` on lists | induction on the dimension list (mixed radix) |
| C02 | `TableReduction` and its Pre/Main/Post, entry by entry | value of a table at an assignment; filter of an index range = insertion of a digit |
| C03 | `TableMarginalization` (list version, one-variable version, `Simplified`) | scatter-add loop = sum over a fibre; fibre = iterated sum over dropped variables |
| C04 | `TableExtension` | gather loop, index round trip |
| C05 | `TableReorganization`, `TableReorganizationPre` | scatter along a permutation |
| C06 | `TableMultiplication` | from C04, C05 |
| C07 | `TableMultiplicationTwoExtension`, `...OneVariable` | false: two counterexamples; partial theorem for non-empty tables not needing re-ordering |
| C08 | `TableDivision` | entrywise |
| C09 | `Normalize`, `NormalizeCPT` | sums over strided index ranges |
| C10 | `PotentialTableBase(DiscreteNode*,Network*)` | C01 |
| C11 | `ChoiceGenerator` as a state machine | successor in lexicographic order; induction on calls |
| C12 | `NaryCount` loop | counter value = mixed-radix numeral of the step |
| C13 | `Split` loop with `find_first_of`/`substr` | induction on the remaining length |
| C14 | trimming functions | induction; UB on the empty string shown separately |
| C15, C16 | Kahn's algorithm with queue and in-degree array | loop invariant: in-degree = number of unprocessed predecessors |
| C17, C18 | network state (parents, children, edge list) and edge operations | invariant over all operation lists |
| C19 | double loop writing the edge array | index formula bijection |
| C20 | `AddDiscreteParent`, `RemoveParent` | induction; removal false: counterexample, partial for one-valued parents |
| C21, C22 | `LearnParams` counting loops and smoothing formula | counting = filter length; sum over a strided column |
| C23 | `AddCount`, `GetProbability`, `InitializeCPT` | invariant over call lists |
| C24 | `AssignProbsToNodes` | from C12 |
| C25, C26 | `Counts3D`, `Counts2D`, `Counts3DGroup`, fill loops | counting = filter length |
| C26, C27 | `ComputeGSquareXYZ`, `...Group`, `ComputeGSquareXY` with `log` and χ² abstract | reindexing of sums; group/df=0 disagreement: counterexample |
| C28–C31, C34 | level loop, edge state machine, group testing, depth loop | `Next` completeness (C11), commutation of independent work items |
| C32, C33 | orientation phase on the network model | invariant; failures recorded as counterexamples |
| C35 | `FindRootsInDAGForest`, `AddRootNode` | BFS invariant |
| C36 | `GetSHD`, `GetSHDOneEdge` | counting |
| C37, C58 | `OrderEdge`, `FindCompelled` | loop invariants; Chickering's theorem (labels = compelled edges); missing `break`: counterexample |
| C38, C39 | `Moralize`, `Triangulate` | elimination invariant |
| C40 | `FormJunctionTree` (Prim with arbitrary ties) | weight argument for maximum spanning trees |
| C41 | `AssignPotentials` | from C06 |
| C42 | message passing on tables | exactness of two-pass propagation by induction on the tree, semantics from C02–C06 |
| C43, C44 | backup/reset, evidence loading | state functions; commutation of reductions |
| C56, C57 | whole learner with d-separation verdicts | soundness of the skeleton and of the Meek rules, Meek's completeness theorem (`Lemmas/Meek`), so the learned arrows are exactly the compelled edges; C57 false: counterexample |
| C45, C46 | `Compute2DIndex`, modulo shortcut | prefix-sum partition; mixed radix suffix |
| C47–C49 | `ArgMax`, `Accuracy`, `Inference` constructor | induction; C49 false for incomplete rows: counterexample and partial |
| C50–C53, C59, C60 | `Dataset` loaders and writers on byte strings | induction over lines and cells |
| C54 | `ParseParameters` on argument lists | induction; fall-through defect: counterexample |
| C55, C61, C62 | sampling loop over a topological order with arbitrary draws; the written file | loop invariant; intervals of the random numbers; round trip through C52 |
| C63 | product of the conditional tables along a topological order | leaf elimination; sums to 1; conditional of a node given its parents |
| C64 | document → description, `loadXMLBIF` as loops | loop invariant over the tables; tables through C24; inference through C42 |
| C65 | BIF text → lines → words, `loadBIF` as loops | split of joined words, loop invariant over the tables; same invariant as C64 |
| C66 | `probabilitiesAllNodes` | write loop invariant over the nodes; C42 for each node |
| C67 | `calculateMSE`, `calculateHellinger`, `roundTo` | loop as sum over the counted places; root of a sum of squares |
| C68 | `loadGroundTruth` on the characters of the file | induction over lines and instances |
| C69 | `JTree.evaluate` | C66, C67, C68 put together |
| C70 | `classify`: `C_PCStable_JT` from the characters of the two files to the accuracy | C50, C51 (loaders), C32 and C35 (structure, ROOT), C22 (tables), C47 to C49 (inference) put together |
| C71 | `exactInference`: `BNEI_JT` from the network file, the test file and the reference file to the two averages | C51, C64 and C69 put together |
| C72 | `sampleGenerator`: `Sample_Generator` from the network file to the text of the sample file | C61, C62, C64 put together; `namedCells` for reading back |
| C73 | `saveStructure`: the text of the structure file names the edges of the learned graph | lists of lines `NamesEdges`; the topological order of `genTopoOrd` |
| C74 | `saveParameters`: the text of the parameter file lists the conditional probabilities | `configsOf` as the enumeration of `getConfig`; C22 for the numbers |
| C75 | `bnsl`: from the training file and a reference file to the structure file and the distance | C32/C33/C57 on the learned graph, C73 for the file, C36/C65 for the distance |
| C76 | `bnl`: additionally the parameter file | C22 and C74 on the same learned graph |
| C77 | `classifyFull`: classification with files and reference | C70 for the accuracy, C35 for ROOT, C22/C73/C74 for the files; a fold that meets a missing node |
| C78 | `program`: `main` on a file system | every step of a command changes only named files; command by command equality with the models on texts |
| C79 | `program`: what a run depends on | relation between two runs kept by every step; a repeated run by C78 |
| C80 | sizes and 32-bit integers | checked arithmetic equals the unbounded one while the largest size is representable, and fails otherwise |
| C81 | learned graph and independences | equivalence is equality of d-separations (covered edge reversals and walks); then C56 |
| C82 | all ways of passing the messages agree | a node's table is final when it is read; normalised products commute |
| C83 | evidence of probability 0 | a state left by successful messages yields an assignment of positive weight, from the root downwards |
| C84 | rounding in the junction tree | the functions on tables are parametric in the kind of numbers; numbers that carry an error bound relate the exact run and every rounded run |
| C85 | the parallel loops of the junction tree, access by access | iterations keep to places of their own, so every interleaving has the outcome of the sequential loop; level by level on the representation of C42 |
| C86 | the parallel loops of the skeleton phase, access by access | with one thread every run is a run of the sequential model for some order; with two, both first iterations of level 0 come to the counter; races only at places that two iterations can access |
| C87 | the reported number of independence tests | every edge record carries the number of tests it still has to go; counter plus what is left is constant over the rounds of a level; levels beyond the largest degree test nothing |
| C88 | the statistic of the test measures the dependence in the data | cell by cell `log t ≥ 1 - 1/t`, with equality only for `t = 1`; observed and expected numbers have the same sum in each stratum; `log t ≤ t - 1` for the upper bound; over ℝ with the real logarithm |
| C89 | parameter learning maximises the (smoothed) likelihood | the likelihood collected by values (`prod_rows`), one parent configuration at a time Gibbs' inequality from `log t ≤ t - 1`, strict unless equal; over ℝ |
| C90 | the learned network does not depend on the order of the training rows or on the names of the values | the codes of the second table are the renumbered codes of the first (`recode`), counts, G² and degrees of freedom are invariant under renumbering (`sumOut_renumber`), then `learnSkeleton_eq` with the same verdicts; orientation is a function of what is equal |
| C91 | classification does not depend on the names of the values; it does depend on the order of the training rows | first-appearance codes are unchanged by an injective renaming, so both loaders give the same numbers; a computed pair of runs for the order |
| C92 | evidence on nodes that the other evidence d-separates from the query does not change the answer | the nodes connected to the query in the moral graph of the ancestral set form one block (`Connected.family`), the joint splits into a product (`sumOut_separated`), then C42 for both runs |
| C93 | only the tables of the ancestors of the query and the evidence matter | nodes outside a parent-closed set are summed to one in reverse topological order (`sumOut_barren`) |
| C94 | edge operations on networks with continuous nodes | the operations on nodes of both kinds refine those on discrete nodes (`SameGraph`), so C13's invariant carries over; the kind of every node and the split of its parents by kind are a second invariant (`KindsOk`) |
| C95 | copy of a network | the nodes of the copy are those of the source; additions read the nodes alone; the edge list is empty |
| C96 | tables of importance sampling, look-up of entries | column loops as in C09, scatter-add as in C03, index arithmetic of C01 |
| C97 | data with continuous variables | simulation of the loader by the discrete loader; embedding of discrete data; the null column array |
| C98 | coherence of the answers | the answers are conditional probabilities (C42); weights of events add up |
| C99 | law of the samples | box of C61, Lebesgue measure of a product of intervals |
| C100 | consistency of sampling and learning | C99, C22, C63; Chebyshev's inequality for independent draws |
| C101 | sampling, learning and inference together | C100; stability of products and quotients; C42 for the learned tables |
| C102 | power of the test on samples of a network | C88 (excess of every cell); frequencies by Chebyshev's inequality (C99); C27 for the code |
| C103 | consistency of learning the graph | C102 for dependent, an upper bound of the statistic for independent variables; Markov property from C91's separation lemma; C28 and C56 for the learner |
| C104 | the test with the chi-square distribution itself | density and Chernoff bound of the gamma distribution (Mathlib); C27, C88, C102, C103 |
| C105 | classification with learned parameters | C42 for the label, C100/C101 for the probabilities; accuracy as a sum over the evidence that can occur |
| C106 | reported accuracy | C43 and C48 for the test run, Chebyshev's inequality on the samples (C99) |
| C107 | parameter learning with rounding | counts are exact; two sums and a quotient per entry; C84 with the factor ρ³ for the tables |
| C108 | parameters learned for another graph | the smoothed frequencies of all families converge (C100's bound for every family at once), so the tables of any graph converge to the conditionals of the true distribution |
| C109 | parameters learned for an equivalent graph | a distribution that factorises over a graph factorises over every equivalent one (its parents d-separate a node from the earlier ones in both graphs, C81 and C92) |
| C110 | graph and parameters from the same samples | the events of C103 (right verdicts) and C108 (frequencies of all families) together; C57 for the completed graph |
| C111 | release of the objects of a command | the list of live objects after every statement; each deletion removes exactly the objects its destructor owns |
| C112 | choice generators of PC-stable on the heap | refinement: same fault or related results, statement by statement; the live generators are those the edges in progress point to |
| C113 | no test uses indeterminate or dead memory | simulation: each loop on the memory is the loop on lists, with the set of written entries as part of the relation |
| C114 | release of the tables by the tests | the memory after a test differs from the one before exactly in the blocks named; induction over a sequence of tests |
| C115 | 32-bit arithmetic of the tests | each index is bounded by the number of cells of the whole group; loops agree under an invariant on the degrees of freedom |
| C116 | 32-bit arithmetic of the skeleton phase | the phase asks only about groups of at most g sets of the size of the level (congruence of every loop in the test); a test that is 32-bit there and unbounded elsewhere answers the same verdicts |
| C117 | printing the edges; the member num_edges | invariant over histories of calls; double counting of parents and children |
| C118 | 32-bit arithmetic of exact inference | every step of the unbounded run is shown to be the step of the 32-bit run under an invariant on the table sizes; exactness of the construction by following the first clique that contains a table; the overflow of a level by an invariant that keeps the sizes |
| C119 | rounding in the independence tests | the double loop over cells is one fold over the cells of the table; error of one term from the errors of its five operations; induction over the cells with total weight; monotone distribution functions carry the bound to the p-value; equal answers give equal skeletons by C29 |
| C120 | classification in machine arithmetic | the rooted version of the learning result of C107; the uniform bound of C84 for networks with ROOT; a clear mode is predicted; the tests by C119; the quotient of two counts is rounded once |
| C121 | parameter learning in 32-bit integers | each node's table and counts agree with the exact ones or the first product overflows; a family lies in a clique, so the limits of C118 cover the tables |
| C122 | decimal text of numbers | induction on the number, against Lean's `toString` |
| C123 | order of values | an `int` is compared with a `float` through its conversion: the comparison is lexicographic in the converted number and, for two `int`s, the integer |
| C124 | combinations of sets | induction on the number of sets |
| C125 | CSV test data with continuous variables | induction on the rows, as for C51; the training side is C97 |
| C126 | value names in XMLBIF files | invariant of the loop over the `VALUE` elements |
| C127 | order of the nodes | the shuffle is undone exchange by exchange |

## Findings: where the code departs from a property

Each has a theorem exhibiting a concrete input.

* C07: `TableMultiplicationTwoExtension` lacks a return for tables without variables; tables over the same variables in a different
  order are multiplied misaligned.
* C16 (`C16_stale_cache`): the cached topological order is not refreshed after an edge change.
* C18 (`C18_readding_breaks`): adding an edge that is already present breaks the node/edge-list correspondence.
* C20 (`C20_removal_wrong`, `C20_rejected_add_wrong`): removing a parent leaves stale parent configurations.
* C21 (`C21_root_odd`): the virtual ROOT's table does not sum to 1 for an odd number of instances.
* C22 (`C22_unseen_configuration`): behaviour for parent configurations without instances.
* C26 (`C26_degenerate_disagreement`, `C26_group_overflow`): the group test overwrites its verdict for tables without degrees of
  freedom; more than 8 sets in a group overflow an array.
* C29 (`C29_group_disagreement`): because of C26, learning with group size 2 instead of 1 can turn an empty skeleton into a complete one.
* C32 (`C32_duplicate_edge`): contradicting v-structures leave a pair both directed and undirected, and undirected edges in the DAG.
* C33 (`C33_reallocation`, `C33_stops_early`): completing a complete skeleton to a DAG appends to `vec_edges` while an iterator into the
  full vector is held; undirected edges behind a directed one are never directed.
* C57 (`C57_new_collider`): the random completion can create v-structures, so the DAG need not agree with the learned equivalence class.
* C36 (`C36_first_edge`, `C36_empty_throws`, `C36_num_edges`): a learned graph whose first edge is directed is taken for a DAG; an empty
  learned graph makes `GetSHD` throw; the conversion of the true graph trusts `num_edges`, which the edge operations do not maintain.
* C37 (`C37_second_call_exits`, `C37_undirected_exits`): `OrderEdge` ends the program when it is called a second time on the same network
  (so does a second comparison with the same true graph) or when there is an undirected edge.
* C58 (`C58_three_parents_ub`, `C58_unlabelled`): a missing `break` in `FindCompelled` erases edges of the work list unlabelled.
* C49 (`C49_class_leaks`, `C49_short_row_throws`): evidence construction for incomplete rows.
* C50 (`C50_header_only`, `C50_no_instances_ub`, `C50_short_row_ub`, `C50_integer_mode`): a CSV training file without instances is read as
  one instance made of the header, or is undefined; so is a short row; in integer mode every recorded number of values is 0.
* C52 (`C52_unterminated_line_lost`, `C52_training`): the LIBSVM test loader drops a last line without newline; the training loader loses
  trailing variables that are 0 everywhere and writes outside its array if the class variable has the largest number.
* C59 (`C59_empty_cell_exit`, `C59_test_data_exit`): data with an empty cell, and every test data set, makes `StoreCSVData` end the program.
* C54 (`C54_save_value_ub`, `C54_save_value_takes_file`, `C54_s_as_file`, `C54_silent`, `C54_unrecognized_exit`): case `'s'` of the option
  switch has no `break`, so `-ss 0` and `-sp 0` read past the end of the value, and a longer value can swallow the next argument as a file
  name; the documented `-v`, `-u`, `-l`, `-d` stop the program; a missing value reads a null pointer (`C54_missing_value_ub`).
* C61 (`C61_zero_draw`): the random number 0, which libstdc++ can return, draws the first value even if its probability is 0.
* C64 (`C64_cycle_accepted`): `LoadXMLBIFFile` accepts a file whose tables form a directed cycle.  Its argument `alpha` has no effect, and a
  probability 0 of the file becomes 1 / (10000 + number of values) (`C64_four_digits`).
* C65: `LoadBIFFile` reads for ever a file without a `probability` line (`C65_endless`); a blank line between tables and an undeclared
  parent are undefined behaviour (`C65_blank_line_ub`, `C65_unknown_parent_ub`); an undeclared value of a parent silently counts as its
  first value (`C65_unknown_value_accepted`); a last line without newline is lost (`C65_last_line_lost`); cycles are accepted
  (`C65_cycle_accepted`); other spacing in a header is undefined behaviour or an exit (`C65_spacing`).
* C67: a probability given to a value whose exact probability is 0 does not count (`C67_impossible_ignored`); with every node observed the
  measures are 0/0 (`C67_all_observed`); `Round` is wrong for negative numbers (`C67_round_negative`; probabilities are not negative).
* C68: a file of reference distributions that is too short is not noticed: missing lines count as those of observed nodes, or the last line
  is used again (`C68_short_file`); a line with too few numbers reads past the end of a vector (`C68_short_line_ub`).
* C69: with fewer than 20 instances the evaluation divides by 0 (`C69_few_ub`).
* C70: in a test row whose class cell is empty or unknown, the first known attribute is taken as the true class and is not used as evidence
  (`C70_class_unknown`); a row without any known cell ends the program (`C70_nothing_known`); with fewer than 20 test rows the program divides by 0
  (`C70_few_rows_ub`); the random values drawn for ROOT can change the accuracy from 1 to 0 on the same files (`C70_random_root`).
* C71: with fewer than 20 test rows exact inference divides by 0 (`C71_few_rows_ub`); a row without any known cell ends the program with an
  exception (`C71_nothing_named`); if the cell of the first column is unknown, the first known value of the row is silently left out of the evidence
  (`C71_first_unknown`); without a file of reference distributions nothing is reported (`C71_no_reference`).  The names in the header of the
  test file are not used: columns are matched with variables by position.
* C72: the class index is not checked; outside the variables it is used as an index of the sample (`C62_bad_class_ub`).
* C73: saving a structure without edges reads the first entry of an empty vector (`C73_no_edges_ub`).  With contradicting v-structures (see
  C32) the file announces more edges than it names and undirected edges are lost (`C73_lost_edges`).
* C74: after training from a LIBSVM file the values have no names, and saving the parameters runs off the end of a function that must return
  a string (`C74_unnamed_ub`).
* C75: if all pairs of variables are found independent, saving the structure is undefined behaviour and the comparison with a reference throws
  (`C75_no_edges`).  The comparison matches variables by their position in the two files and ignores their names (`C75_names_ignored`).
* C76: parameter learning ignores undirected edges: variables joined only by undirected edges get their marginal distributions
  (`C76_undirected_ignored`).
* C75–C78: the range of the significance level is only checked by the constructor of the independence test (IndependenceTest.cpp 12-21), so a level
  outside 0 to 1 is accepted by the command line and ends the program when the first test is made, with nothing written (`C75_level_exit`,
  `C77_level_exit`, `C78_level_exit`).  With one variable no test is made and the level is never looked at.  The model makes the check once,
  before the first test, because every test makes it before anything else.  A level that is not a number passes the check in the code and is not
  modelled.
* C77: classification with a reference network never gives a result: the learned network has the additional node ROOT, which the comparison
  looks up in the reference, and the program exits (`C77_reference_fails`, `C77_reference_exits`).  If all pairs of variables are found
  dependent (two columns suffice), the command is undefined behaviour (`C77_complete_ub`).
* C78: classification without `-m 1`, approximate inference with another method than 0 and the sample generator with another method than 0 and 1 do
  nothing and end with success (`C78_silent`).  The data directory is taken from the path of the source file at compile time: a copy in a directory
  such as `FastPGM-master` looks for `FastPGM-dataset/`, a relative path is cut after seven characters (`C78_data_path_cut`,
  `C78_data_path_none`).  Structure learning with an unsupported method prints an error and ends with status 0 (not visible in the model).
* C79: a reference network stored under the name of the training file with `_struct` is overwritten before it is read
  (`C79_reference_lost`).
* C80: marginalisation, extension and reduction allocate `table_size * num_variables` integers, computed as an `int`.  For 27 binary variables this
  exceeds `INT_MAX` although the table has only 2²⁷ entries (`C80_lost`).  A contingency table with 2³¹ cells or more is undefined behaviour too; the
  search for a separating set does not limit the size, so eight conditioning variables with ten values are enough.
* C81: no new finding.  `C57_new_collider` says in these terms that the completed graph can contradict the very test results it was learned from.
* C82: in `Collect2` (Clique.cpp 38-53) the tasks of the downstream neighbours of one clique update the table of that clique without any lock, so with several threads a message can be lost or a half written table read as soon as a clique has two of them.  The call is commented out (JunctionTree.cpp 467); the theorem is about tasks that run one after the other in any order.  In `Distribute2` every table is written by one task, which starts after the table it reads is final.
* C83 (`C83_zero_nan`): evidence of probability 0 is not detected.  The tables become NaN; `ArgMax` (Inference.cpp 93-103) then finds no entry greater than 0 and returns the uninitialised `max_index` as the predicted label, and with `mode = 0` the NaN go into the error measures.
* C86: `num_ci_test++` (PCStable.cpp 145), `num_ci_test += i` (561) and `sepset.insert` (174, 583) run in parallel loops without protection.
  With two or more threads and three or more variables every call has a possible data race (undefined behaviour), whatever the data.
* C91 (`C91_row_order`): ties between classes are broken by the order in which the classes first appear in the training file, so exchanging two training rows can change the printed accuracy from 1 to 0.
* C94 (`C94_topo_mixed`): in a network with a continuous node `GetTopoOrd` always returns the empty order, because the code for this case is
  commented out.  (`C94_double_edge`): adding the same edge between two continuous nodes twice and deleting it twice is undefined behaviour
  (`ContinuousNode::RemoveParent` searches without testing for the end), while the same calls on discrete nodes are harmless.
* C95 (`C95_copy_loses_edges`): the copy constructor of `Network` does not copy `vec_edges` (nor `num_edges` and `pts`).  The copy has the parents
  and children of the source but lists no edge, so `DeleteDirectedEdge` on the copy fails for every edge and a comparison of structures sees an
  empty graph.
* C96 (`C96_not_cleared`): `GetMarginalizedProbabilities` adds to its output vector for a node with parents but replaces it for a node without.
* C97 (`C97_libsvm_training_ub`): `LoadLIBSVMTrainingData` with a continuous variable reads `dataset_columns`, which is made for purely discrete
  data alone: a null pointer is read for every file with a feature.
* C97 (`C97_label_kind`): the LIBSVM loaders decide by variable 0 (`cont_vars.find(0)`) whether the label is a `float`, not by the class variable.
* C97 (`C97_store_float`): `StoreCSVData` calls `GetInt` on every value, so data with a continuous value cannot be stored; the branch for
  continuous variables is never used.
* C110: learning the graph, completing it at random, learning the parameters and answering need not become right with more data.  For the chain
  0 → 1 → 2 the random bits 0, 1 turn the learned graph into 0 → 1 ← 2 (C57), and the answer for P(2 | 0) tends to 1/2 instead of 5/8
  (`C110_wrong_answer`).
* C111 (`C111_undefined`): `Network::~Network` (Network.cpp 56-62) deletes its nodes through `Node*`, the nodes are `DiscreteNode` or
  `ContinuousNode` objects, and `Node` (Node.h) has no virtual destructor.  Every command of the program therefore ends in undefined behaviour.
  With a virtual destructor all is released, except the learner objects of structure learning and of the combined learning command
  (`C111_release_partial`).  (`C111_double_release`): `~PCStable` (PCStable.cpp 14-16) releases the network, which the caller owns, so a program that
  deletes both releases the network twice.
* C114 (`C114_leak`): `ComputeGSquareXYZ` (IndependenceTest.cpp 140-142) and `ComputeGSquareXY` (349-351) return before `SAFE_DELETE` when there is no
  degree of freedom.  Each such test, for instance of a variable that is constant in the data, leaves the table object and its three to five arrays;
  `n` such tests without conditioning variables leave `4 n` blocks.  All other tests release everything (`C114_released_partial`).
* C115 (`C115_group_lost`): the tables of a group of tests share one array, whose size `dimx * dimy * Σ dimz` is an `int`.  Eight tests of binary
  variables given 26 variables each are defined one by one (2²⁸ cells) and undefined as a group.
* C116 (`C116_too_many`): `GenerateUndirectedCompleteGraph` (Network.cpp 272) computes `(num_nodes - 1) * num_nodes` in `int` before halving it.  With
  more than 46341 variables it overflows although the number of edges, its half, would fit up to 65536 variables.
* C117 (`C117_nothing_printed`, `C117_throws`): `AddDirectedEdge`, `DeleteDirectedEdge`, `AddUndirectedEdge` and `DeleteUndirectedEdge` do not change
  `num_edges` (the statements are commented out), and `PrintEdges` (Network.cpp 133) counts with it.  A network built with these calls is printed
  without any edge and with "num edges = 0"; after `GenerateUndirectedCompleteGraph` and a deletion `PrintEdges` throws `out_of_range`.
* C118 (`C118_level_overflow`, `C118_level_overflow_witness`): `SeparatorLevelDistribution` (JunctionTree.cpp 677-678) adds up, in an `int`, the size of
  the parent clique of every separator of a level, so a clique counts once for each of its children.  A class variable with 32768 values, a feature
  with 24576 values and three binary features have 805502976 clique entries in all, every index array of a clique fits an `int`, the tree is built, and
  every query overflows.
* `LearnParamsKnowStructCompData` computes `alpha * var_dims[0]` in `int`: with a smoothing parameter of 2³⁰ or more the product overflows for every variable with two values, whatever the data (`C121_large_alpha`).
* `Value::operator<` converts an `int` to `float` before comparing it with a `float`.  On 2²⁴, 2²⁴ + 1, 2²⁴ + 2 and the `float`s 2²⁴ and 2²⁴ + 2 it is no strict weak order, in any rounding mode (`C123_rounding`), nor on any set with a NaN and two comparable values (`C123_nan`); `std::set` requires one.
* `GenAllCombinationsFromSets` takes all sets but the last out of its argument and gives no combination (rather than the empty one) when there is no set (`C124_argument`).  Elements that two sets share fall together, so that there may be fewer combinations than choices.
* `LoadCSVTestingData` accepts an empty cell of a discrete variable ("the dataset can be incomplete", line 563) and leaves it out, but passes the empty text of a continuous variable to `stof`, which throws (`C125_missing_number`, `C125_succeeds`).
* `GetUnconnectedNodes` numbers the `VALUE` elements one by one but takes the number of different names as the number of values.  A file that names a value twice is accepted, and the code of its last value is not below the number of values (`C126_out_of_range`, `C126_accepted`).  The BIF loader counts a repeated name each time (`C126_bif`), so the same variable gets different numbers of values from the two formats; a second `type` line for a variable is accepted and can leave codes out of range (`C126_bif_second_type`).
* C40: for a network whose nodes do not hang together `FormJunctionTree` dereferences a null pointer (`C40_disconnected_ub`); for a network
  without nodes the constructor throws (`C40_no_nodes_throw`).
* C41 (example beside the theorem): a table whose variables lie in no clique is dropped silently.
* C42 (`C42_observed_query_exit`): asking for an observed node ends the process.
* C43 (`C43_predictAll`): a test run over fewer than 20 instances divides by zero.

## Skeleton phase of PC-stable

The parallel loops of the skeleton phase update their own edge record and the shared map `sepset`; in the code `sepset.insert` and
the counter `num_ci_test` are unsynchronised (a data race, C86; `Model/SkeletonThreads.lean` has the loops access by access, with an edge
record and the map as one place each).  The model of C28 to C34 treats each insertion as atomic: a level is an arbitrary order of
whole iterations (`sched`, `order`), so the theorems cover every interleaving of the iterations but not a torn map update.  The batch size
128 is a parameter `cap`; the loops are run with `fuel`, and the theorems give a bound from which the result is defined and the same.

## Orientation phase

Iterators into `vec_edges` are positions, and a loop that appends while it holds an iterator gets the capacity of the vector (`cap`);
`GenerateUndirectedCompleteGraph` leaves it at `n(n-1)/2`, and erasing does not shrink it.  `Random01` is an arbitrary function `bits` of
the call number.  C56 and C57 use d-separation by active paths (`Spec/DSeparation`) as the ideal independence test; that the adjacencies
and colliders of the true graph are recovered is proved from the graph-theoretic definition (the parents of a node separate it from its
non-descendants), not assumed.

## ROOT node

`Model/RootNode.lean` transcribes `FindRootsInDAGForest` and `AddRootNode`.  `Lemmas/RootNode.lean` proves the breadth-first search marks
exactly the weak component of its start; the loops are run with a bound on their rounds that is proved sufficient.  The name of the new
node is left out.  `AddRootNode` does not reset the cached topological order (C16).

## Comparison of structures

`Model/Compare.lean` transcribes `OrderEdge`, `FindCompelled`, `IsDAG` and `BNSLComparison`.  Node look-ups that cannot fail and whose
result is not used are left out.  `Lemmas/Chickering*.lean` prove, without reference to the code, that labels obeying the three rules of
Chickering's algorithm are exactly the compelled edges: soundness by transporting an edge through equivalent graphs, completeness by
building for every unlabelled edge an equivalent graph that reverses it.  `Lemmas/Compare.lean` and `Compare2.lean` show that the code
obeys the rules.  `Spec.Equivalent` is "same adjacencies and v-structures"; that this is the same as equal independences (Verma and
Pearl) is not used.

## Data files

`Model/Dataset.lean` works on bytes: `getline` with its end-of-file and fail bits, `stoi`, `to_string`, `Split`, `TrimRight`.  A `map` is an
association list whose order is not modelled.  Files that cannot be opened are left out; continuous variables (`cont_vars`) are in `Model/MixedDataset.lean`.
`Spec/Dataset.lean` describes a file as a table of cells (`CsvFile`), the codes as positions among the first appearances (`firstSeen`) and
the arrays by `lastValue`.

## Command line and sampling

`Model/Parameter.lean`: an argument is a list of characters; its terminating NUL is readable, the characters after it are not; `argv[argc]` is
a null pointer, so using it is undefined.  `atoi` outside `int` is undefined.  `stod` is a parameter.

`Model/Sampler.lean`: `std::discrete_distribution` is a parameter for C55 (only the standard's promise is used) and inversion on a number in
`(0, 1]` for C61.  The engine and its seeding from the clock are not modelled: the random numbers are arbitrary.

## Network files

`Model/XmlNetwork.lean`: the input is the document as tinyxml2 delivers it, reduced to the elements the loader asks for; `none` is a missing or
empty text, which the code dereferences.  `std::stod` and `int(x * 10000)` are parameters, so the theorems hold for every rounding.
`PotentialTableBase(node, network)` on the loaded nodes is `sampleTables`.  `Spec/NetFile.lean` says what a file describes (variables, values,
tables), independently of XML.

`Model/BifNetwork.lean`: the BIF loader on the characters of the file.  Its first loop does not test for the end of the file, so the model takes a
number of rounds and answers `none` when they are used up; the theorems hold for every sufficient number of rounds, or for every number when
the loop does not end.  `Spec/BifFile.lean` says which texts describe a network: words with single blanks, any indentation, rows in any order.

## Evaluation

`Model/Evaluation.lean`: the rounding, the two error measures, the file of reference distributions (on its characters) and the loop of
`EvaluateAccuracy` in mode 0.  `trunc` (double to `long long`) and `sqrt` are parameters; theorems ask for `CutsOff` and `IsSqrt`, which hold for the
real numbers.  `Spec/Evaluation.lean` has the packed list of distributions, the format of the file and the root mean square.  Printing is
not modelled.

## Whole commands

`Model/Pipeline.lean` composes the models into the functions of `fastpgm_api.cpp`, from the characters of the files to the result.  `Execution`
collects what the environment decides (`log`, `pchisq`, random values, schedules of the parallel loops, order of equal candidates, a bound
for the loops).  Printing and time measurements are left out; saving and the comparison with a reference network come with `Model/LearnCommands.lean`.  `Spec/Pipeline.lean` says what is known in a test row and which label is the most probable one.

## Commands on network files

`Model/Commands.lean` composes the loader of network files with inference (`exactInference`) and with sampling (`sampleGenerator`).  The
seed that the program takes from the system clock for every sample is the argument `rnd`.

## Files written by learning

`Model/SaveFiles.lean` contains the two functions that write the learned network; the result is the text of the file.  `fmt` stands for
`to_string` of a double and is an arbitrary function.  The member `node_name` of the nodes is the list `names`, the member
`possible_values_ids` the list `valueIds`.

## Learning commands

`Model/LearnCommands.lean` composes loading, structure learning, saving, comparison and parameter learning into the functions that `main`
calls.  The result has the text of the files and the printed distance.  `Numbers` collects `stod`, `to_string`, the conversion of probabilities
to counts and a bound for the loop of the BIF loader.  `Spec/LearnCommands.lean` says what a training file is, when the learned graph is right
(`LearnedGraph`), what the distance to the reference is (`Reference`) and what the parameter file holds (`frequencyText`).

`Spec/ClassifyCommand.lean` describes the graph with ROOT (`RootedGraph`) and the parameter file of the classification command (`rootedText`).

## The program

`Model/Program.lean` is `main`: options, choice of the command, and the commands on a file system (`World`), where reading and writing happen
in the order of the code and what is written stays after a fault.  A file that cannot be opened ends the program.  Of a file whose writing meets
a fault, only the fact that it has been opened (and so emptied) is modelled.  `Runtime` collects the parameters of the environment,
among them the XML tokenizer as an arbitrary function of the text.  `Prog` is a state monad with faults and a distinct outcome for the loop of the BIF
loader that does not end.  `Spec/Program.lean` says which files may be written (`MayWrite`) and read (`ReadsFile`).

## 32-bit integers

`Model/Int32.lean` repeats the index arithmetic of the potential tables (cumulative levels, size, index, offsets in the scratch arrays), of the sums of
table sizes over a level, and of the contingency table of one test, with `int` operations that are undefined above 2³¹ - 1.  C80 says exactly when
they agree with the unbounded versions used everywhere else.  Not repeated: groups of tests (the sizes of a group are added up), counts (at most the
number of instances), node and edge numbers, and the functions of `PotentialTableBase` built from the three modelled ones.

## Independences

`Lemmas/MarkovWalk.lean`, `MarkovReverse.lean` and `MarkovEquiv.lean` prove the theorem of Verma and Pearl for d-separation as defined in
`Spec/DSeparation.lean`: d-separation by paths is unreachability by walks, reversing a covered edge (Chickering) keeps reachability, and equivalent graphs are
connected by such reversals.  C81 combines it with C56 and C36, so that the claims about learning are about test results only.

## Message passing

`Model/MessagePassing.lean` has the ways of passing messages that the program can be switched to by moving comments in
`MessagePassingUpdateJT`, `Collect` and `Distribute`: by recursion (`Collect2`, `Distribute2`), by levels (`Collect3`, `Distribute3`), and with
the level operations that compute every index (`SeparatorLevelCollection`, `CliqueLevelDistribution`).  C82 says that all of them, and in fact
all orders of messages in which nobody hears anything after having spoken (`Spec/MessageOrder.lean`), give the same tables or the same failure.

## Rounding

`Spec/Rounding.lean` describes a machine arithmetic: addition, multiplication and division return a number that differs from the exact result
by at most a factor ρ, or nothing if the result is outside the range of the format.  `binary64` is the arithmetic of `double`s on numbers that are
not negative, with any rule for ties (`C84_binary64`).  The functions of `Model/JunctionTreeRun.lean` are run on these numbers (`Rounded`)
as they stand: same loops, same order of operations, same tests for zero.  `Lemmas/Parametric.lean` proves once that the functions take
related numbers to related numbers.  `Lemmas/Rounding.lean` uses this twice, for numbers that carry an error bound (`Tracked`) and exact
numbers, and for numbers that carry an error bound and machine numbers.  The bound of C84 is what the run on `Tracked` numbers computes;
it does not depend on the arithmetic.  For the diamond network it is 153 roundings.  A number outside the range of the format times 0
counts as 0.
Learning, sampling and the error measures are not covered by C84.

## Threads

`Model/Threads.lean`: a loop body is a program whose accesses to shared memory are single steps.  `parFor` is `#pragma omp parallel for`: any
distribution of the iterations over the threads, any order within a thread, any interleaving of the accesses.  Its value is the set of possible
outcomes.  Two accesses to one place that can happen next to each other, one of them a write and in different threads, are a data race and
give the outcome `ub`; so does an endless execution.  Memory is sequentially consistent, which is what C++ guarantees for programs without
races.  `Model/JTParallel.lean` writes the loops of `LoadDiscreteEvidence`, `SeparatorLevelDistribution`, `SeparatorLevelCollection`,
`CliqueLevelCollection` and `CliqueLevelDistribution` (the variants that are called) in this way.  Arrays that are filled before a loop and only read in it are parameters of
the iterations.  The work between the loops, which one thread does, is computed on tables as in `Model/JunctionTreeRun.lean`.
The number of threads is a parameter; `num_threads(p)` is taken as a team of exactly `p` threads, some of which may have no iterations.

## Networks with continuous nodes

`Model/MixedNetwork.lean` has nodes of both kinds (`MNode`) and repeats the edge operations with the virtual calls resolved by the kind of the
node.  The Gaussian parameters of a continuous node are not modelled: no function of the library reads or writes them.

## Tables of importance sampling

`Model/SamplingTable.lean` adds `potentialsICPT` and `pt_scores` to a table.  No function of the library gives these vectors their size; the
theorems assume it.

## Data with continuous variables

`Model/MixedDataset.lean` models the loaders and `StoreCSVData` for a nonempty `cont_vars`.  `float` is an arbitrary type and `stof` an arbitrary
partial function.  `LoadCSVTestingData` with continuous variables is in `Model/MixedCsvTest.lean` (C125).

### Probability of samples (C99–C101)

`Spec/Random.lean`: the random numbers used for `m` samples of `n` variables are a point of `Fin m × Fin n → ℝ` under the product of the
uniform distributions on (0, 1] (Mathlib's Lebesgue measure).  Numbers are real, `std::discrete_distribution` works by inversion as in C61.
That `std::mt19937` seeded by `std::random_device` behaves like independent uniform numbers is an assumption.  C100 hands the samples to
parameter learning in memory, column by column; the way through a file is C62 and C72.

### Learning the graph from more and more samples (C102, C103)

`Spec/Consistency.lean`: `CondIndependent` is independence under the distribution of the network the samples come from; `SlowLevels` is the
assumption on the significance levels: they tend to 0, but slower than the tail of the chi-square distribution at a multiple of the number of
samples (with tails like `exp (-g/2)`, the level `1/(m+1)` will do).  `pchisq` stays a parameter.  The command-line programs use one level for
all sizes of data; for a fixed level only C102 holds: edges are kept, superfluous ones may stay.  Faithfulness of the graph is an
assumption of C103, the other half (d-separated variables are independent) is proved, `C103_markov`.  Tests are made one at a time (group
size 1), as in C28.

### The chi-square distribution (C104)

`Spec/ChiSquare.lean` defines the chi-square distribution function as that of the gamma distribution of Mathlib with shape `df / 2` and rate
`1 / 2`.  C104 shows that it satisfies what C88, C102 and C103 assume of `pchisq`, so with exact arithmetic these hold for the distribution the
program uses; the rounding of `stats::pchisq` is not modelled.  The edge cases of the level are part of C104: at level 0 every test says
independent, at level 1 every test with a degree of freedom says dependent.  (`IndependenceTest.cpp` 12-21 ends the program for levels outside
[0, 1]; the model takes the level as given.)

### Classification with a learned network (C105, C106)

`Spec/Classification.lean`: `hitRate` is the probability that a classifier finds the value of the class variable from the values of all other
variables, under the distribution of the network the data come from.  C105 compares the network learned from `m` samples with every function
from evidence to labels.  C106 is about the number that `EvaluateAccuracy` prints for a test set; the evidence of a test instance is taken in
the order of the variables (C44: the order does not matter).  With fewer than 20 test instances the code divides by zero (C43), hence the bound
in C106.

### Learning with rounding (C107)

`learnParams` is defined for every type with the operations it uses, so it can be run on the numbers of C84.  Counts and `alpha` are `int`s; their
conversion to `double` is exact (`double_natCast`).  An entry is two sums and one quotient, so in a general arithmetic the learned tables are
within a factor ρ³ of the exact ones (`C107_tables`), and with `double`s, where the sums are exact, within `1 + 2^-52` (`C107_doubles`).

### Parameters learned for a graph that is not the true one (C108, C109)

The learner need not return the graph of the network the data come from.  `Spec.projection` is the distribution with the parents of the other graph
and the conditional probabilities of the true distribution.  C108: the answers of the tables learned for a graph `M` from samples of a network `N`
tend to the conditional probabilities under the projection.  C109: if `M` is equivalent to `N` the projection is the true distribution, so the
answers are right in the end.  The example beside C108 is the chain 0 → 1 → 2 with parameters learned for 0 → 1 ← 2 (the graph `C57_new_collider`
says the learner can return for it): the answer tends to 1/2 although it should be 5/8.

### Everything from the same samples (C110)

`LearnsGraph` says that from `m` samples both phases of the learner, with completion to a directed graph, return a graph with a given property, for
every order of the pairs, schedule, batching, capacity and sequence of random bits.  C110: the graph keeps the adjacencies and the compelled
directions, and the answers from the tables learned for it tend to those under the projection of the true distribution.  They are right in the end
if the completed graph has no new v-structure (`C110_no_new_collider`), in particular if all edges are compelled (`C110_compelled`).  C57's partial
theorem now also says that the completion keeps the compelled directions.

### Memory release (C111, C112)

`Model/Ownership.lean`: the heap is the list of live objects with class and form (single or array); `Heap.del` is undefined for a dead object, for the
wrong form and for a pointer to a base class without virtual destructor, `Heap.use` for a dead object.  The five commands of `fastpgm_api.cpp` are
written as sequences of allocations, uses and deletions of the data set with its arrays, the network with its nodes, the learner objects, the junction
tree with cliques, separators and backups, and the sampler; which virtual destructors exist is a parameter.  `Model/GeneratorOwnership.lean` is the
skeleton phase with `Edge::cg` as a pointer that starts indeterminate; reading, writing or deleting through it is undefined unless it points to a live
generator.  C112 shows it has the same outcome as the model of C28–C31 with the generators inside the edges, and that no generator is left.
Not modelled: arrays local to one function, some of which are leaked (`config` in ParameterLearning.cpp 133).

### Memory of the tests (C113, C114)

`Model/TestMemory.lean`: `int` arrays obtained with `new[]` are blocks at addresses with entries that start indeterminate.  Reading an indeterminate
entry, reading or writing outside a block, using or releasing a dead block are undefined.  The constructors, destructors, counting and marginalising
functions of CellTable.cpp and the three test functions of IndependenceTest.cpp are written again on this memory, with every `new[]` and `delete[]`.
C113 shows, for all arguments, that the outcome is that of the model on lists (`Model/CellTable.lean`, `Model/IndependenceTest.lean`), which fills new
arrays with 0.  Simplified: the three arrays of offsets are filled by three loops instead of one; for an empty data set the loop of
`ComputeGSquareXY` is skipped.

### The tests in 32-bit arithmetic (C115)

`Model/Int32Test.lean` writes `Counts3DGroup`, `FillTableGroup`, `Counts2D` and the three test functions again with every `int` sum and product checked.
Not checked: the counts themselves (at most the number of instances, an `int`), and the number `m * size` of loop steps, which does not occur as a value.

### The skeleton phase in 32-bit arithmetic (C116)

`Model/Int32Skeleton.lean`: the complete graph and level 0 with checked arithmetic, and the levels of `Model/Skeleton.lean` with the 32-bit test of
C115.  The counter `num_ci_test`, which is only printed, is left out.

### Printing a network (C117)

`Model/PrintEdges.lean` adds the member `num_edges` to the network of `Model/Network.lean` and models `PrintEdges` and `CheckEdges`, whose result is the
text written to standard output.

### Exact inference in 32-bit arithmetic (C118)

`Model/JunctionTree32.lean`: construction of the tree, `LoadDiscreteEvidence`, `Collect`, `Distribute` and the query with checked index arithmetic and
checked sums of table sizes over a level.  `C118_construction` is exact.  For the query the limit proved (twice the number of cliques times the largest
clique) is sufficient, not necessary: the sums of a level never exceed it.  The sizes kept by evidence loading are bounded by those without evidence.

### Rounding in the independence tests (C119)

`Model/RoundedTest.lean` repeats the three tests of `IndependenceTest.cpp` over an arithmetic `DoubleOps` whose operations are parameters, in the order
in which the code applies them.  `AccurateOps` states the IEEE assumption: every operation, and the logarithm, returns the exact result up to
relative error `u`, or absolute error `u * tiny` below `tiny`, as long as the exact result is at most `hi`; counts below 2^53 are exact.  `nearestDouble` is
rounding to 53 bits with gradual underflow, and `doubleOps_accurate` proves the assumption for it with `u = 2^-53`, `tiny = 2^-1022` and `hi = 2^1023`; the
theorems show that no intermediate result exceeds `hi`.  Assumed: the logarithm of the C library is correctly rounded (for a library with a larger error
take a larger `u`), and `1 - pchisq` has absolute error at most `π` (`AccurateTail`).  A test is `ClearTest` if its exact p-value stays on the same side of `alpha` when the
statistic moves by the bound and the p-value by `π`.  Tests that are not clear can go either way; nothing is claimed about them, so symmetry (C27) and
independence of the schedule (C29) are claimed for machine arithmetic only through this theorem or for the verdicts the machine gives.
`Model/RoundedLearning.lean` puts these tests into `StructLearnCompData`; `C119_structure` says that the network learned from a training file is then the exact one.

### The classification command in machine arithmetic (C120)

`Model/RoundedPipeline.lean` is the command of C70 with every number of type `double` in machine arithmetic: the tests in `DoubleOps` (C119), the learned
tables, the junction tree and the accuracy in `Rounded ar` (C84, C107).  `C120_classify` needs no assumption on the tests: it speaks about the network that
was learned.  `C120_exact` adds the assumption of C119 that all tests are clear and compares with the exact command.  The factor by which the prediction has to be clear
is `ρ ^ (2 * bound)`, where `bound` depends on the files and the order of the junction tree only; its existence is proved, no value is given.

### Parameter learning in 32-bit integers (C121)

`Model/Params32.lean` repeats parameter learning with the `int` operations of the code in 32 bits: the cumulative levels and sizes of the tables, the indexes, the counters and
`alpha * var_dims[0]`.  The number of instances and the number of values of each variable are assumed to be less than 2³¹, since they are `int`s already.  Under
this assumption the counters and indexes cannot overflow, so that the limits are exact: the table sizes and the product with `alpha` (`Spec/Params32.lean`).  `C121_answers` joins
this with C118.

### Values and combinations (C123, C124)

`Model/ValueOrder.lean` and `Model/Combinations.lean` are the parts of common.h that the other models do not use: the comparison of `Value`s and `GenAllCombinationsFromSets`.  A
`float` is an element of a linear order or NaN; infinities are elements of the order.  The conversion of integers is any monotone function that satisfies `Spec.Conversion`; rounding
downwards is one (an `example` in `Props/ValueOrder.lean`).  The sets of `GenAllCombinationsFromSets` are `Finset`s, in the order of the outer set.

### Order of the nodes (C127)

`Model/NodeOrder.lean` is `AssignNodeOrder`, which the library offers but does not call.  `std::random_shuffle` is taken as libstdc++ implements it; the numbers `rand()` returns are
arbitrary.  That they are uniform after reduction to their range is not claimed.

## Junction tree

`Model/JunctionTree.lean` transcribes moralisation, triangulation, `FormJunctionTree`, the assignment of potentials and the level
traversal; `Model/JunctionTreeRun.lean` transcribes table storage, evidence, message passing and the queries.

* Sets of pointers (`set<Separator*>`, `set<Clique*>`) are traversed in address order, which is arbitrary: the orders are parameters,
  and the theorems hold for every permutation.
* `Lemmas/JTElim*.lean`: triangulation is an elimination of all nodes; pairwise adjacent nodes end up in one clique; the kept cliques are
  exactly the maximal ones; there is a junction tree of them.
* `Lemmas/JTTree.lean`, `Lemmas/JTPrim.lean`: exchange argument; Prim's algorithm with any tie order yields a junction tree.
* `Lemmas/Marg.lean`, `Message.lean`, `JTLevels.lean`, `JTPlan.lean`, `JTTables.lean`, `JTCalibrate.lean`: the two passes, stated on
  functions of assignments and refined to the table code, leave in every clique the normalised marginal of the product of the potentials.
* `Lemmas/JTBuild.lean`, `JTQuery.lean`: the constructor and the queries; `Spec/Posterior.lean` defines the conditional probability by
  enumeration of all assignments.  `Lemmas/JTEvidence.lean`: reductions commute.
* The loops flattened over all tables of a level are modelled as loops over the tables (C45 covers the index arithmetic).

## Not modelled

Timers and console output other than the results; the exit status; the order of floating-point summation; the exact behaviour of `stats::pchisq` (an arbitrary partial function
of statistic and degrees of freedom) and of `log` (an arbitrary function); file-system errors beyond "cannot open"; the XML tokenizer (tinyxml2); the numeric value of the χ²
distribution; floating-point rounding except in the junction tree (C84), parameter learning (C107) and the independence tests (C119); release of arrays local to a function; code that is commented out in the repository (`VariableElimination.cpp`,
`BruteForce.cpp`); the parameters of continuous nodes.

## Trusted base

Lean's kernel and the axioms `propext`, `Classical.choice`, `Quot.sound`; the faithfulness of the transcription from C++ in
`Verif/Model`.

## Tests with wrong programs

`seeded/LOG.jsonl` has one line per edit of a definition of the model, made in a copy.  `theorems_failed` lists the property theorems that no longer
compile after the edit, directly or because a lemma they use does not.  A theorem that fails shows that the proof depends on the edited text; that the
statement itself became false is the intention of the edit, given in `claim`, and is not checked by machine.  `survived` marks edits after which all
theorems still compile; `note` then says either that the edit changes nothing observable or which theorem was tightened, and a later line with the
same name and the suffix `b` repeats the edit.  `modules_checked` says which modules were rebuilt: `Verif` is all of them; for edits of large parts only
the modules that state the claim were rebuilt, so the list of failed theorems is then incomplete.
