{"id": "C01", "title": "Table index and configuration are inverse bijections", "statement": "For a potential table over variables with positive dimensions, converting a table index below the table size to a configuration and back returns the index, converting a configuration with every value below its dimension to an index and back returns the configuration, and the index is always below the table size.", "quantifier": "every list of positive dimensions (any length), every index below the product, every in-range configuration", "why_tests_cant": "The number of dimension lists and configurations is unbounded; a test fixes a handful of shapes.", "anchors": ["src/fastpgm/PotentialTableBase.cpp:GetConfigValueByTableIndex", "src/fastpgm/PotentialTableBase.cpp:GetTableIndexByConfigValue", "src/fastpgm/PotentialTableBase.cpp:ConstructCumLevels"]}
{"id": "C02", "title": "Reducing a table by evidence conditions the factor", "statement": "After TableReduction(v,x) with x a legal value of v, the table no longer mentions v and its value at every configuration of the remaining variables is the old value at that configuration with v set to x; with an illegal x every entry is 0.", "quantifier": "every well-formed table, every variable of it, every value, every configuration of the remaining variables", "why_tests_cant": "Position of v, table shape and entries are arbitrary; the layout shift is only visible on some shapes.", "anchors": ["src/fastpgm/PotentialTableBase.cpp:TableReduction", "src/fastpgm/PotentialTableBase.cpp:TableReductionPost"]}
{"id": "C03", "title": "Marginalisation sums out exactly the dropped variables", "statement": "Marginalising a table to a sub-list of its variables (in any order) gives at each configuration the sum of the entries of the original table compatible with it; the one-variable version and the general version agree.", "quantifier": "every well-formed table, every duplicate-free sub-list of its variables, every configuration", "why_tests_cant": "Sums over arbitrarily many entries and arbitrary layouts cannot be enumerated.", "anchors": ["src/fastpgm/PotentialTableBase.cpp:TableMarginalization", "src/fastpgm/PotentialTableBase.cpp:TableMarginalizationOneVariable", "src/fastpgm/PotentialTableBase.cpp:TableMarginalizationPost"]}
{"id": "C04", "title": "Extension does not change the factor", "statement": "Extending a table to a larger variable list gives a table whose value at every configuration is the value of the original at the restriction of that configuration.", "quantifier": "every well-formed table, every duplicate-free super-list of its variables with compatible positive dimensions, every configuration", "why_tests_cant": "Arbitrary shapes and orders of variables.", "anchors": ["src/fastpgm/PotentialTableBase.cpp:TableExtension", "src/fastpgm/PotentialTableBase.cpp:TableExtensionPost"]}
{"id": "C05", "title": "Reordering the variables of a table does not change the factor", "statement": "TableReorganization to any permutation of the variables, and the storage reorganisation that moves a sub-list of the variables to the end, keep the value of the table at every assignment.", "quantifier": "every well-formed table, every permutation of its variables, every sub-list to be moved to the end", "why_tests_cant": "Permutations and shapes are unbounded.", "anchors": ["src/fastpgm/PotentialTableBase.cpp:TableReorganization", "src/fastpgm/PotentialTableBase.cpp:TableReorganizationPre", "src/fastpgm/inference/JunctionTree.cpp:ReorganizeTableStorage"]}
{"id": "C06", "title": "Multiplying by a table over a subset of the variables is the pointwise product", "statement": "If every variable of the second table occurs in the first with the same dimension, TableMultiplication makes the first table's value at each assignment the product of the two values, whatever the order of variables in either table.", "quantifier": "every pair of well-formed tables with the second's variables contained in the first's, every assignment", "why_tests_cant": "Mis-alignment bugs show only for particular orders; all orders and shapes must be covered.", "anchors": ["src/fastpgm/PotentialTableBase.cpp:TableMultiplication"]}
{"id": "C07", "title": "Multiplication of arbitrary tables (two-sided extension) is the pointwise product", "statement": "TableMultiplicationTwoExtension yields the pointwise product of the two factors for any two tables with consistent dimensions.", "quantifier": "every pair of well-formed tables with consistent dimensions, every assignment", "why_tests_cant": "The failing inputs (same variables in a different order, empty first table) are corner shapes a test suite need not contain.", "anchors": ["src/fastpgm/PotentialTableBase.cpp:TableMultiplicationTwoExtension", "src/fastpgm/PotentialTableBase.cpp:TableMultiplicationOneVariable"]}
{"id": "C08", "title": "Division undoes multiplication with 0/0 read as 0", "statement": "Dividing a table by a table over the same variables gives entrywise quotient with x/0 = 0; dividing a product by one factor gives back the other factor wherever the divisor is non-zero, and 0 where it is 0.", "quantifier": "all pairs of equally shaped tables over an ordered field", "why_tests_cant": "Arbitrary entries, including zeros at arbitrary places.", "anchors": ["src/fastpgm/PotentialTableBase.cpp:TableDivision"]}
{"id": "C09", "title": "Normalisation preserves proportions and makes entries sum to one", "statement": "After Normalize a table with non-zero total sums to 1 and every entry is the old entry divided by the old total; after NormalizeCPT every column with positive total sums to 1, all columns with non-positive total are unchanged.", "quantifier": "every well-formed table", "why_tests_cant": "Arbitrary sizes and entries.", "anchors": ["src/fastpgm/PotentialTableBase.cpp:Normalize", "src/fastpgm/PotentialTableBase.cpp:NormalizeCPT"]}
{"id": "C10", "title": "Initial potential table of a node is its conditional probability table", "statement": "The potential table constructed from a node has the node as first variable, its parents in increasing order after it, and its entry at a configuration is exactly P(node value | parent values) as reported by the node.", "quantifier": "every node, every parent set, every configuration", "why_tests_cant": "Parent sets and domains are unbounded.", "anchors": ["src/fastpgm/PotentialTableBase.cpp:PotentialTableBase(DiscreteNode*,Network*)", "src/fastpgm/DiscreteNode.cpp:GetProbability"]}
{"id": "C11", "title": "The subset generator enumerates every subset of the given size exactly once", "statement": "For 1 <= b <= a repeated calls of Next return every strictly increasing b-tuple of numbers below a exactly once, in lexicographic order, and then the empty vector for ever; NextN(k) returns the next k of them.", "quantifier": "every a >= b >= 1, every number of calls", "why_tests_cant": "The number of subsets grows without bound; termination and completeness are inductive facts.", "anchors": ["src/fastpgm/ChoiceGenerator.cpp:Next", "src/fastpgm/ChoiceGenerator.cpp:Fill", "src/fastpgm/ChoiceGenerator.cpp:NextN"]}
{"id": "C12", "title": "The n-ary counter enumerates every digit vector exactly once", "statement": "NaryCount on n >= 1 positive radices returns every vector of in-range digits exactly once, with digit 1 varying fastest, then digit 2, ..., and digit 0 slowest.", "quantifier": "every non-empty list of positive radices", "why_tests_cant": "Unbounded radices and lengths.", "anchors": ["src/fastpgm/common.cpp:NaryCount", "src/fastpgm/XMLBIFParser.cpp:AssignProbsToNodes"]}
{"id": "C13", "title": "Splitting a line loses nothing", "statement": "Split by a single delimiter returns pieces that contain no delimiter and whose concatenation with the delimiter in between is the input; with several delimiter characters no piece contains any of them and the number of pieces is one more than the number of delimiter characters.", "quantifier": "every string, every delimiter set", "why_tests_cant": "Strings are unbounded.", "anchors": ["src/fastpgm/common.cpp:Split"]}
{"id": "C14", "title": "Trimming removes exactly the outer blank bytes", "statement": "Trim returns the unique middle part of the input such that what is removed on both sides consists of blank/control bytes and the result does not start or end with one; trimming twice changes nothing. The comma/semicolon/parenthesis trimmers remove at most one such character and are defined on every non-empty input.", "quantifier": "every byte string", "why_tests_cant": "Strings are unbounded; the failing input is the empty string.", "anchors": ["src/fastpgm/common.cpp:Trim", "src/fastpgm/common.cpp:TrimRight", "src/fastpgm/common.cpp:TrimLeft", "src/fastpgm/common.cpp:TrimRightComma"]}
{"id": "C15", "title": "Cycle check answers exactly whether the directed graph has a cycle", "statement": "The circle check on the adjacency matrix of a directed graph returns true iff there is a directed cycle.", "quantifier": "every directed graph on any number of nodes", "why_tests_cant": "Infinitely many graphs.", "anchors": ["src/fastpgm/common.cpp:DirectedGraphContainsCircle", "src/fastpgm/Network.cpp:ContainCircle"]}
{"id": "C16", "title": "Topological order is a topological order", "statement": "For an acyclic directed graph the returned order lists every node exactly once and every edge goes from an earlier to a later node.", "quantifier": "every acyclic directed graph", "why_tests_cant": "Infinitely many graphs.", "anchors": ["src/fastpgm/common.cpp:TopoSortOfDAGZeroInDegreeFirst", "src/fastpgm/Network.cpp:GenTopoOrd"]}
{"id": "C17", "title": "A network can never become cyclic", "statement": "Starting from an empty network, after any sequence of adding directed edges (accepted or rejected), adding undirected edges, deleting directed or undirected edges, the directed part has no cycle; AddDirectedEdge returns true iff the edge closes no cycle, and a rejected call of a new edge leaves parents, children and edges unchanged.", "quantifier": "every history of edge operations on any number of nodes", "why_tests_cant": "Histories are unbounded.", "anchors": ["src/fastpgm/Network.cpp:AddDirectedEdge", "src/fastpgm/Network.cpp:DeleteDirectedEdge", "src/fastpgm/Network.cpp:AddUndirectedEdge", "src/fastpgm/Network.cpp:DeleteUndirectedEdge"]}
{"id": "C18", "title": "Parent sets, child sets and the edge list stay consistent", "statement": "After every history of edge operations p is a parent of c iff c is a child of p iff the edge list contains the directed edge p -> c, provided no operation adds an edge that is already present; the statement fails without the proviso.", "quantifier": "every history of edge operations", "why_tests_cant": "Histories are unbounded; inconsistency needs a particular history.", "anchors": ["src/fastpgm/Network.cpp:SetParentChild", "src/fastpgm/Network.cpp:RemoveParentChild", "src/fastpgm/Network.cpp:AddDirectedEdge", "src/fastpgm/Node.cpp:AddParent"]}
{"id": "C19", "title": "The complete graph has each pair exactly once at the documented position", "statement": "GenerateUndirectedCompleteGraph yields exactly n(n-1)/2 edges, one for each unordered pair, every slot of the edge array written exactly once.", "quantifier": "every number of nodes", "why_tests_cant": "For all n; index formula errors appear only at some n.", "anchors": ["src/fastpgm/Network.cpp:GenerateUndirectedCompleteGraph"]}
{"id": "C20", "title": "Parent configurations of a node are the cartesian product of its parents' domains", "statement": "After any sequence of parent additions the recorded parent configurations are exactly the assignments of all parents to legal values, each once; removing a parent restores the configurations of the remaining parents.", "quantifier": "every sequence of parent additions and removals with any domain sizes", "why_tests_cant": "Histories and domains are unbounded; the removal defect needs a parent with at least two values.", "anchors": ["src/fastpgm/Node.cpp:AddDiscreteParent", "src/fastpgm/Node.cpp:RemoveParent"]}
{"id": "C21", "title": "Learned conditional distributions are normalised and strictly positive", "statement": "With smoothing alpha > 0 every column of every learned table sums to 1 over the values of the node and every entry lies in (0,1] (strictly below 1 when the node has at least two values).", "quantifier": "every dataset, every network structure, every alpha > 0", "why_tests_cant": "Datasets and structures are unbounded.", "anchors": ["src/fastpgm/parameter_learning/ParameterLearning.cpp:LearnParams"]}
{"id": "C22", "title": "Learned parameters are the smoothed relative frequencies of the data", "statement": "The learned entry for (x, parent configuration u) equals (N(x,u)+alpha)/(N(u)+alpha*r) where N counts the training instances with these values and r is the number of values of the node; with alpha = 0 it is the relative frequency whenever N(u) > 0.", "quantifier": "every dataset with in-range values, every node and parent set", "why_tests_cant": "Datasets are unbounded.", "anchors": ["src/fastpgm/parameter_learning/ParameterLearning.cpp:LearnParams"]}
{"id": "C23", "title": "Node statistics give a probability distribution for every parent configuration", "statement": "After any sequence of AddCount calls on an initialised node the total recorded for a parent configuration equals the sum of its counts, and GetProbability sums to 1 over the node's values and is monotone in the added counts.", "quantifier": "every sequence of AddCount calls with non-negative counts and legal values", "why_tests_cant": "Histories are unbounded.", "anchors": ["src/fastpgm/DiscreteNode.cpp:AddCount", "src/fastpgm/DiscreteNode.cpp:GetProbability", "src/fastpgm/DiscreteNode.cpp:InitializeCPT"]}
{"id": "C24", "title": "Every entry of a probability table in a network file reaches exactly one cell", "statement": "Reading the TABLE of a definition assigns each of its numbers to exactly one (value, parent configuration) pair, every pair gets exactly one number, and a table of the wrong length makes the loader stop.", "quantifier": "every node arity, every list of parents and arities, every table", "why_tests_cant": "Arities are unbounded.", "anchors": ["src/fastpgm/XMLBIFParser.cpp:AssignProbsToNodes", "src/fastpgm/common.cpp:NaryCount"]}
{"id": "C25", "title": "Contingency tables count exactly the matching instances", "statement": "For any variables x, y and conditioning list z the cell (x=a,y=b,z=c) of the counting table is the number of instances with these values, and the marginal tables are the sums.", "quantifier": "every dataset with in-range values, every x, y, every list z (including empty and one element)", "why_tests_cant": "Datasets and conditioning sets are unbounded.", "anchors": ["src/fastpgm/structure_learning/CellTable.cpp:Counts3D", "src/fastpgm/structure_learning/CellTable.cpp:Counts2D", "src/fastpgm/structure_learning/CellTable.cpp:FillTable"]}
{"id": "C26", "title": "Grouped independence testing gives the same verdicts as one test at a time", "statement": "Filling the tables of a group of conditioning sets in one pass gives the same tables as filling each one alone, and the group test reports the first conditioning set that the single test finds independent.", "quantifier": "every dataset, every group of conditioning sets of equal size", "why_tests_cant": "Datasets are unbounded; the disagreement needs a degenerate table.", "anchors": ["src/fastpgm/structure_learning/CellTable.cpp:Counts3DGroup", "src/fastpgm/structure_learning/IndependenceTest.cpp:ComputeGSquareXYZGroup"]}
{"id": "C27", "title": "Conditional independence verdict is symmetric", "statement": "The test of x against y given z gives the same statistic, degrees of freedom and verdict as y against x given z, and does not depend on the order of the conditioning variables.", "quantifier": "every dataset, all x, y, every permutation of z", "why_tests_cant": "Datasets are unbounded.", "anchors": ["src/fastpgm/structure_learning/IndependenceTest.cpp:IndependenceResult", "src/fastpgm/structure_learning/IndependenceTest.cpp:ComputeGSquareXYZ"]}
{"id": "C28", "title": "Skeleton search removes exactly the separable edges at each level", "statement": "At level d an edge x-y present at the start of the level is removed iff some set of d neighbours (at level start) of x other than y, or of y other than x, makes x and y independent; nothing else changes.", "quantifier": "every graph, every independence oracle, every level", "why_tests_cant": "Graphs and oracles are unbounded.", "anchors": ["src/fastpgm/structure_learning/PCStable.cpp:SearchAtDepth", "src/fastpgm/structure_learning/PCStable.cpp:CheckEdge", "src/fastpgm/structure_learning/PCStable.cpp:Testing"]}
{"id": "C29", "title": "Group size, batch size and thread schedule do not change the learned skeleton", "statement": "The skeleton and the recorded separating sets are the same for every group size, every batching and every order in which the edges of a level are processed.", "quantifier": "every group size >= 1, every schedule of the edge work items, every oracle", "why_tests_cant": "Schedules are exponentially many.", "anchors": ["src/fastpgm/structure_learning/PCStable.cpp:SearchAtDepth", "src/fastpgm/structure_learning/PCStable.cpp:CheckEdge", "src/fastpgm/structure_learning/PCStable.cpp:Testing"]}
{"id": "C30", "title": "Every removed edge has a recorded separating set that separates it", "statement": "After the skeleton phase a pair of distinct variables is non-adjacent iff a separating set is recorded for it, and the independence test succeeded on exactly that set, which consists of variables that were neighbours of one of the two when the edge was removed.", "quantifier": "every dataset/oracle and every depth bound", "why_tests_cant": "Runs are unbounded.", "anchors": ["src/fastpgm/structure_learning/PCStable.cpp:StructLearnByPCStable", "src/fastpgm/structure_learning/PCStable.cpp:Testing"]}
{"id": "C31", "title": "Stopping the level loop early loses nothing", "statement": "When the search stops because no node has enough neighbours, every later level would remove no edge; the level loop tests conditioning sets of every size below the depth bound and none larger.", "quantifier": "every graph, oracle and depth bound", "why_tests_cant": "Unbounded graphs.", "anchors": ["src/fastpgm/structure_learning/PCStable.cpp:FreeDegree", "src/fastpgm/structure_learning/PCStable.cpp:StructLearnByPCStable"]}
{"id": "C32", "title": "Edge orientation keeps the skeleton and never creates a cycle", "statement": "After v-structure orientation, propagation of implied orientations and random orientation of the rest, the directed part is acyclic and the set of adjacent pairs is the skeleton; each adjacent pair is represented by exactly one edge.", "quantifier": "every skeleton, every separating-set map, every random choice sequence", "why_tests_cant": "Graphs and random sequences are unbounded.", "anchors": ["src/fastpgm/structure_learning/PCStable.cpp:OrientVStructure", "src/fastpgm/structure_learning/PCStable.cpp:OrientImplied", "src/fastpgm/structure_learning/StructureLearning.cpp:Direct"]}
{"id": "C33", "title": "Random completion to a DAG always succeeds", "statement": "Directing the remaining undirected edges one by one, in either order of attempt, never reaches the error exit and ends with all edges directed and no cycle.", "quantifier": "every acyclic partially directed graph, every sequence of random bits", "why_tests_cant": "Graphs and bit sequences are unbounded.", "anchors": ["src/fastpgm/structure_learning/StructureLearning.cpp:DirectLeftEdges", "src/fastpgm/structure_learning/StructureLearning.cpp:Direct"]}
{"id": "C34", "title": "The learned skeleton does not depend on the order of the variables", "statement": "If the variables (and the data columns) are permuted, the learned skeleton is the permuted skeleton, provided the independence verdict is symmetric and does not depend on the order of the conditioning set.", "quantifier": "every permutation of the variables, every symmetric oracle", "why_tests_cant": "Factorially many permutations of unboundedly many variables.", "anchors": ["src/fastpgm/structure_learning/PCStable.cpp:StructLearnByPCStable"]}
{"id": "C35", "title": "Adding a root node makes the network connected without creating a cycle", "statement": "The root finder returns one parentless node from every weakly connected component, and after adding the extra root with an edge to each of them the network is acyclic and weakly connected.", "quantifier": "every DAG", "why_tests_cant": "Graphs are unbounded.", "anchors": ["src/fastpgm/structure_learning/StructureLearning.cpp:FindRootsInDAGForest", "src/fastpgm/structure_learning/StructureLearning.cpp:AddRootNode"]}
{"id": "C36", "title": "Structural Hamming distance counts the pairs of nodes on which the two graphs differ", "statement": "The reported distance is the number of unordered pairs whose edge status (absent, undirected, one of the two directions) differs; it is 0 iff the graphs are equal, and it is symmetric.", "quantifier": "every pair of graphs over the same nodes", "why_tests_cant": "Graphs are unbounded.", "anchors": ["src/fastpgm/structure_learning/BNSLComparison.cpp:GetSHD", "src/fastpgm/structure_learning/BNSLComparison.cpp:GetSHDOneEdge"]}
{"id": "C37", "title": "Edge ordering covers every edge once", "statement": "The first OrderEdge on a network returns every edge of the DAG exactly once, ordered by head in topological order and, for equal heads, by tail from latest to earliest.", "quantifier": "every DAG", "why_tests_cant": "Graphs are unbounded, and the order has to be topological for each of them.", "anchors": ["src/fastpgm/Network.cpp:OrderEdge"]}
{"id": "C38", "title": "Moralisation connects exactly parents with children and co-parents", "statement": "The moral graph has an edge between two distinct nodes iff one is a parent of the other or they have a common child.", "quantifier": "every DAG", "why_tests_cant": "Graphs are unbounded.", "anchors": ["src/fastpgm/inference/JunctionTreeStructure.cpp:Moralize"]}
{"id": "C39", "title": "Every node and its parents lie together in some clique", "statement": "The cliques produced by triangulation cover every variable, and for every node there is a clique containing it and all its parents; no clique is contained in an earlier one.", "quantifier": "every DAG", "why_tests_cant": "Graphs are unbounded.", "anchors": ["src/fastpgm/inference/JunctionTreeStructure.cpp:Triangulate"]}
{"id": "C40", "title": "The junction tree has the running intersection property", "statement": "For a connected network the clique tree is a tree, every separator is the intersection of its two cliques and the cliques containing a given variable form a connected subtree.", "quantifier": "every connected network, every order in which ties between separators are broken", "why_tests_cant": "Graphs and tie orders are unbounded.", "anchors": ["src/fastpgm/inference/JunctionTreeStructure.cpp:FormJunctionTree"]}
{"id": "C41", "title": "The product of the initial clique potentials is the joint distribution", "statement": "After assigning each conditional table to a clique, the product of all clique potentials at an assignment is the product over all nodes of P(node | parents).", "quantifier": "every network and every full assignment", "why_tests_cant": "Unbounded networks and assignments.", "anchors": ["src/fastpgm/inference/JunctionTreeStructure.cpp:AssignPotentials"]}
{"id": "C42", "title": "Junction-tree inference returns the exact posterior", "statement": "For evidence of positive probability, after message passing the distribution reported for an unobserved variable is P(variable | evidence) of the joint distribution of the network.", "quantifier": "every junction tree with the running intersection property, every non-negative potentials, every evidence of positive probability, every variable", "why_tests_cant": "Networks, tables and evidence are unbounded.", "anchors": ["src/fastpgm/inference/JunctionTree.cpp:MessagePassingUpdateJT", "src/fastpgm/inference/JunctionTree.cpp:Collect", "src/fastpgm/inference/JunctionTree.cpp:Distribute", "src/fastpgm/inference/JunctionTree.cpp:CalculateMarginalProbability"]}
{"id": "C43", "title": "Queries do not interfere", "statement": "The answer for one evidence set does not depend on which evidence sets were processed before on the same junction tree.", "quantifier": "every sequence of queries", "why_tests_cant": "Histories are unbounded.", "anchors": ["src/fastpgm/inference/JunctionTree.cpp:ResetJunctionTree", "src/fastpgm/inference/JunctionTree.cpp:BackUpJunctionTree", "src/fastpgm/inference/JunctionTree.cpp:PredictUseJTInfer"]}
{"id": "C44", "title": "Evidence loading order does not matter", "statement": "Reducing all cliques and separators by several pieces of evidence gives the same factors whatever the order of the pieces.", "quantifier": "every list of evidence on distinct variables, every permutation", "why_tests_cant": "Permutations are unbounded.", "anchors": ["src/fastpgm/inference/JunctionTree.cpp:LoadDiscreteEvidence", "src/fastpgm/inference/JunctionTree.cpp:LoadEvidenceToNodesOptimized"]}
{"id": "C45", "title": "The flattened parallel loops visit every table cell exactly once", "statement": "The two-dimensional index computed from the flat loop counter of the parallel loops is a bijection between the flat range and the cells of all tables of a level; no two iterations write the same cell.", "quantifier": "every list of table sizes (including zero-sized ones), every flat index, every schedule", "why_tests_cant": "Schedules and sizes are unbounded.", "anchors": ["include/fastpgm/inference/JunctionTree.h:Compute2DIndex", "src/fastpgm/inference/JunctionTree.cpp:SeparatorLevelCollectionOptimized"]}
{"id": "C46", "title": "The modulo shortcut computes the true separator index", "statement": "When the separator's variables are the last variables of the clique's table, the index of the separator entry for clique entry k is k modulo the separator's size, equal to the index obtained by the general configuration conversion.", "quantifier": "every shape, every k", "why_tests_cant": "Shapes are unbounded.", "anchors": ["src/fastpgm/inference/JunctionTree.cpp:SeparatorLevelCollectionOptimized", "src/fastpgm/inference/JunctionTree.cpp:CliqueLevelDistributionOptimized"]}
{"id": "C47", "title": "The predicted label is the first most probable value", "statement": "ArgMax returns the first index with the largest entry for every vector with a positive entry; without one the result is indeterminate.", "quantifier": "every non-negative vector", "why_tests_cant": "Vectors are unbounded.", "anchors": ["src/fastpgm/inference/Inference.cpp:ArgMax"]}
{"id": "C48", "title": "Accuracy is the fraction of correctly predicted instances", "statement": "The reported accuracy is the number of positions where prediction and truth agree divided by the number of instances, between 0 and 1, and 1 iff all agree.", "quantifier": "every non-empty prediction list", "why_tests_cant": "Lists are unbounded.", "anchors": ["src/fastpgm/inference/Inference.cpp:Accuracy"]}
{"id": "C49", "title": "Evidence of a test instance is its observed non-class values", "statement": "The evidence built for an instance is exactly the set of its (variable, value) pairs except the class variable's, and the ground truth is the class variable's value.", "quantifier": "every test instance, complete or with missing values, every class variable", "why_tests_cant": "Patterns of missing values are unbounded.", "anchors": ["src/fastpgm/inference/Inference.cpp:Inference"]}
{"id": "C50", "title": "CSV values are encoded injectively by first occurrence", "statement": "Loading CSV training data with string values (the default) maps the distinct values of each column one-to-one onto 0,1,...,k-1 in order of first appearance and stores for every cell the code of its text; the recorded number of values of the column is k; every cell text can be recovered from code and column.", "quantifier": "every table of cell texts", "why_tests_cant": "Tables are unbounded.", "anchors": ["src/fastpgm/Dataset.cpp:LoadCSVTrainingData"]}
{"id": "C51", "title": "Test data is encoded with the training codes", "statement": "Loading CSV test data gives a value the code it has in training and omits exactly the cells whose value is empty or was never seen.", "quantifier": "every test table and value map", "why_tests_cant": "Tables are unbounded.", "anchors": ["src/fastpgm/Dataset.cpp:LoadCSVTestingData"]}
{"id": "C52", "title": "LIBSVM data survives store and load", "statement": "Writing complete discrete data in LIBSVM format and loading it as test data gives back the same instances, zeros included, for every file the writer can produce.", "quantifier": "every complete dataset with non-negative values", "why_tests_cant": "Datasets are unbounded.", "anchors": ["src/fastpgm/Dataset.cpp:StoreLIBSVMData", "src/fastpgm/Dataset.cpp:LoadLIBSVMTestingData"]}
{"id": "C53", "title": "Column-major copy is the transpose", "statement": "After loading, the column-major copy holds at (variable, instance) exactly the value at (instance, variable) of the row-major data, which is the last value listed for that variable in the instance and 0 if none.", "quantifier": "every dataset", "why_tests_cant": "Datasets are unbounded.", "anchors": ["src/fastpgm/Dataset.cpp:Vector2IntArray", "src/fastpgm/Dataset.cpp:RowMajor2ColumnMajor"]}
{"id": "C54", "title": "Command-line parsing assigns every recognised option its own value", "statement": "For an argument list consisting of recognised option/value pairs, parsing sets exactly the fields named by the options to the given values and leaves the others at their defaults; any unrecognised option stops the program.", "quantifier": "every argument list", "why_tests_cant": "Argument lists are unbounded.", "anchors": ["src/fastpgm/Parameter.cpp:ParseParameters"]}
{"id": "C55", "title": "Forward sampling draws every variable after its parents and only possible values", "statement": "In a generated sample every variable has exactly one value, chosen with all its parents already drawn, and only values of positive probability given the parents are drawn.", "quantifier": "every DAG, every sequence of random draws", "why_tests_cant": "Random sequences are unbounded.", "anchors": ["src/fastpgm/SampleSetGenerator.cpp", "src/fastpgm/Network.cpp:GetTopoOrd"]}
{"id": "C56", "title": "With a perfect independence test the learner recovers the equivalence class", "statement": "If the independence answers are exactly the d-separations of a directed acyclic graph whose nodes have fewer parents than the depth limit, PC-stable without completion returns a graph with exactly the adjacencies of that graph, whose arrows are all arrows of it, with all its unshielded colliders oriented, and to which no orientation rule applies any more.", "quantifier": "every directed acyclic graph, every schedule, batch and group size", "why_tests_cant": "Graphs and schedules are unbounded; sampled data never give a perfect test.", "anchors": ["src/fastpgm/structure_learning/PCStable.cpp:StructLearnCompData", "src/fastpgm/structure_learning/PCStable.cpp:OrientVStructure", "src/fastpgm/structure_learning/PCStable.cpp:OrientImplied"]}
{"id": "C57", "title": "The completed DAG represents the learned independencies", "statement": "With the independence answers of a directed acyclic graph, the DAG returned after the random completion has the same adjacencies and the same unshielded colliders as that graph.", "quantifier": "every directed acyclic graph, every sequence of random bits", "why_tests_cant": "Random sequences and graphs are unbounded.", "anchors": ["src/fastpgm/structure_learning/StructureLearning.cpp:DirectLeftEdges", "src/fastpgm/structure_learning/PCStable.cpp:StructLearnCompData"]}
{"id": "C58", "title": "Compelled-edge labels are exactly the directions shared by the equivalence class", "statement": "After OrderEdge and FindCompelled every edge of the DAG is labelled, and it is labelled compelled iff it has the same direction in every acyclic graph with the same adjacencies and v-structures.", "quantifier": "every DAG", "why_tests_cant": "The claim quantifies over all graphs and over all members of each equivalence class; the defect needs a node with three pairwise non-adjacent parents.", "anchors": ["src/fastpgm/Network.cpp:OrderEdge", "src/fastpgm/Network.cpp:FindCompelled"]}
{"id": "C59", "title": "CSV data survives store and load", "statement": "A data set loaded from a CSV training file without empty cells can be written with StoreCSVData, and loading the written file gives the same data set: names, codes, value maps, counts and arrays.", "quantifier": "every table of non-empty cell texts", "why_tests_cant": "Tables are unbounded.", "anchors": ["src/fastpgm/Dataset.cpp:StoreCSVData", "src/fastpgm/Dataset.cpp:LoadCSVTrainingData"]}
{"id": "C60", "title": "LIBSVM training data: every value is below the recorded number of values", "statement": "After loading a LIBSVM training file, every stored value of a variable is smaller than the recorded number of values of that variable, the number is attained, there is one instance per line, and variables are named by their index.", "quantifier": "every file the loader accepts", "why_tests_cant": "Files are unbounded.", "anchors": ["src/fastpgm/Dataset.cpp:LoadLIBSVMTrainingData"]}
{"id": "C61", "title": "Forward sampling draws from the joint distribution", "statement": "If the conditional distributions add up to 1 and discrete_distribution works by inversion, a generated sample equals a given assignment exactly when for every variable its random number lies in an interval of length P(value | parents' values); so with independent uniform numbers each assignment is drawn with its joint probability.", "quantifier": "every network, every assignment, every sequence of random numbers in (0,1]", "why_tests_cant": "The claim is about a distribution over all random numbers.", "anchors": ["src/fastpgm/SampleSetGenerator.cpp:GenerateSamplesBasedOnCPTs", "src/fastpgm/PotentialTableBase.cpp:GetReducedPotentials"]}
{"id": "C62", "title": "Generated samples survive the LIBSVM file", "statement": "The file OutputLIBSVM writes, loaded as LIBSVM test data with the same class variable, gives back exactly the generated samples.", "quantifier": "every sample set, every class variable in range", "why_tests_cant": "Sample sets are unbounded.", "anchors": ["src/fastpgm/SampleSetGenerator.cpp:OutputLIBSVM", "src/fastpgm/Dataset.cpp:LoadLIBSVMTestingData"]}
{"id": "C63", "title": "The conditional tables define one joint distribution", "statement": "The product of the conditional tables of a network sums to 1 over all assignments; in this joint distribution the table of a node is its conditional distribution given its parents; so every answer of the junction tree is a distribution (entries between 0 and 1, sum 1), and learned parameters define a distribution whose conditionals are the smoothed relative frequencies.", "quantifier": "every acyclic network built through the public interface, all tables over node and parents whose columns sum to 1, all evidence of positive probability", "why_tests_cant": "The claim is about sums over exponentially many assignments, for every graph.", "anchors": ["src/fastpgm/PotentialTableBase.cpp:PotentialTableBase(DiscreteNode*, Network*)", "src/fastpgm/inference/JunctionTree.cpp:GetProbabilitiesAllNodes", "src/fastpgm/parameter_learning/ParameterLearning.cpp"]}
{"id": "C64", "title": "An XMLBIF file is loaded as the network it describes", "statement": "For every document that describes a Bayesian network, LoadXMLBIFFile ends normally; names, value codes, numbers of values and edges (parent sets, child sets, edge list) are exactly those of the file; the table of every node has the numbers of the file, smoothed by the constant 1, is positive and is a conditional distribution; the junction tree on the loaded network answers with the posteriors of these tables. A load that ends normally has checked that every mentioned name is declared. A cyclic file is accepted.", "quantifier": "every number of variables, values and parents, every order of the PROBABILITY elements, every order of GIVEN elements", "why_tests_cant": "Files, tables and orders are unbounded; the index arithmetic of the table depends on all domain sizes.", "anchors": ["src/fastpgm/XMLBIFParser.cpp", "src/fastpgm/CustomNetwork.cpp:LoadXMLBIFFile", "src/fastpgm/DiscreteNode.cpp:GetProbability"]}
{"id": "C65", "title": "A BIF file is loaded as the network it describes", "statement": "For every BIF text that describes a Bayesian network, LoadBIFFile ends normally; names, value codes, numbers of values and edges are exactly those of the text; the tables are those of the text, smoothed by the constant 1; the junction tree on the loaded network answers with the posteriors of these tables; the XMLBIF loader delivers the same network for the same description. Without a table the loader never ends; blank lines, unknown names or other spacing are undefined behaviour.", "quantifier": "every number of variables, values, parents; any indentation; every order of tables and of rows", "why_tests_cant": "Texts, tables and orders are unbounded; non-termination cannot be observed by a test.", "anchors": ["src/fastpgm/CustomNetwork.cpp:LoadBIFFile", "src/fastpgm/common.cpp:Split"]}
{"id": "C66", "title": "GetProbabilitiesAllNodes lists the posterior distribution of every node", "statement": "For a connected network, its tables and evidence of positive probability, the list has, node after node, the conditional distribution of the node given the evidence, a single -1 for an observed node, and -1 in the rest; its length is the sum of the numbers of values. The tree is as before.", "quantifier": "every DAG, tables, evidence of positive probability", "why_tests_cant": "The network, the tables and the evidence are unbounded.", "anchors": ["src/fastpgm/inference/JunctionTree.cpp:GetProbabilitiesAllNodes"]}
{"id": "C67", "title": "The error measures are root mean squares over the possible values", "statement": "CalculateMSE and CalculateHellingerDistance are the root of the mean of the squared differences (of the roots), over the places with exact probability greater than 0, with the approximate probability rounded to seven digits; Round gives the nearest multiple of 10^-b for numbers that are not negative; a measure is 0 exactly if the rounded approximate probabilities are the exact ones at these places.", "quantifier": "every pair of lists, every number of digits", "why_tests_cant": "Real numbers and lists are unbounded; tests show only samples.", "anchors": ["src/fastpgm/inference/Inference.cpp:CalculateMSE", "src/fastpgm/inference/Inference.cpp:CalculateHellingerDistance", "src/fastpgm/inference/Inference.cpp:Round"]}
{"id": "C68", "title": "The file of reference distributions is read as written", "statement": "For a file with one line per instance and node, blank for an observed node and otherwise the numbers with single blanks, LoadGroundTruthProbabilityTable gives for each instance the distributions packed as by GetProbabilitiesAllNodes. A file that is too short is accepted with wrong tables.", "quantifier": "every number of nodes, values and instances; any white space at the end of a line", "why_tests_cant": "Files are unbounded.", "anchors": ["src/fastpgm/inference/Inference.cpp:LoadGroundTruthProbabilityTable"]}
{"id": "C69", "title": "The evaluation reports the average error of the posteriors", "statement": "For at least 20 instances, the printed averages are the means over the instances of the error measures between the exact posterior distributions of the network and the distributions of the file; against the exact distributions rounded to seven digits both are 0. With fewer than 20 instances the program divides by zero.", "quantifier": "every network, tables, list of instances, file", "why_tests_cant": "Networks, instances and files are unbounded.", "anchors": ["src/fastpgm/inference/Inference.cpp:EvaluateAccuracy", "src/fastpgm/inference/JunctionTree.cpp:Predict"]}
{"id": "C70", "title": "Classification predicts the most probable class of every test row and reports the share of correct predictions", "statement": "If structure learning ends, then for CSV files of training and test data with at least 20 test rows whose class occurs in the training data, the tables are the smoothed relative frequencies of the training rows for the learned parents, the prediction for a row is the first most probable class given its known cells in the distribution that is the product of these tables, cells that are empty or do not occur in the training column are not observed, and the reported accuracy is the share of rows whose prediction is the class in the file.", "quantifier": "every pair of CSV files, level, group size, schedule, random values, order of equal candidates", "why_tests_cant": "Files, schedules and random values are unbounded; a test fixes one of each and cannot tell the exact posterior from an approximation.", "anchors": ["src/fastpgm/fastpgm_api/fastpgm_api.cpp:C_PCStable_JT", "src/fastpgm/structure_learning/PCStable.cpp:StructLearnCompData", "src/fastpgm/inference/Inference.cpp:EvaluateAccuracy"]}
{"id": "C71", "title": "Exact inference from files reports the distance between the true posterior and the reference", "statement": "For a network file of a connected Bayesian network, a CSV test file of at least 20 rows and a file of reference distributions, the two numbers that exact inference reports are the averages over the rows of the root mean square distance and of the Hellinger distance between the reference and the exact posterior, rounded to 7 digits, of the network in the file given the known cells of the row other than the class.", "quantifier": "every network file, test file, reference file, order of the junction tree", "why_tests_cant": "The claim is about all networks, evidence and reference numbers and about the exact posterior, which a test can only compare on small instances.", "anchors": ["src/fastpgm/fastpgm_api/fastpgm_api.cpp:BNEI_JT", "src/fastpgm/inference/Inference.cpp:EvaluateAccuracy"]}
{"id": "C72", "title": "The sample generator writes samples of the distribution in the network file", "statement": "For a network file of a Bayesian network, sample i is the combination of values x exactly if for each variable the drawn number falls into the interval of x, whose length is the conditional probability in the file; the CSV file contains the names of the variables and of the values drawn, the LIBSVM file is read back as the values drawn, and the CSV file read with the network gives the samples again.", "quantifier": "every network file, number of samples, class variable, sequence of drawn numbers", "why_tests_cant": "The correctness of a sampler concerns all sequences of random numbers; a test sees a few frequencies.", "anchors": ["src/fastpgm/fastpgm_api/fastpgm_api.cpp:Sample_Generator", "src/fastpgm/SampleSetGenerator.cpp:GenerateSamplesBasedOnCPTs", "src/fastpgm/Dataset.cpp:StoreCSVData"]}
{"id": "C73", "title": "The structure file describes the learned graph", "statement": "Whenever the learned edge list and parent sets describe one partially directed graph with at least one edge, saving the structure succeeds; the first line has the number of nodes and of edges, and the other lines, numbered from 0, name each arrow (from parent to child) exactly once and each undirected edge exactly once.  With the verdicts of a graph the arrows are the compelled edges.", "quantifier": "every learned network, names of variables, random choices of the learner", "why_tests_cant": "The file depends on the order of the edge list, on a topological order and on a case distinction by the first edge; tests see few graphs.", "anchors": ["src/fastpgm/structure_learning/StructureLearning.cpp:SaveBNStructure", "src/fastpgm/Network.cpp:GetTopoOrd"]}
{"id": "C74", "title": "The parameter file lists all conditional probabilities", "statement": "Saving the parameters writes, node by node, for every configuration of the node and its parents one line with the names and numbers of the values and the conditional probability of the table; after learning with smoothing these are the smoothed relative frequencies in the training data.", "quantifier": "every network, domain sizes, training data, names, smoothing parameter", "why_tests_cant": "The configuration of each line is computed from its position by integer division; all shapes of tables matter.", "anchors": ["src/fastpgm/parameter_learning/ParameterLearning.cpp:SaveBNParameter", "src/fastpgm/DiscreteNode.cpp:GetValueNameByIndex"]}
{"id": "C75", "title": "The structure learning command reports the learned graph and its distance to the reference", "statement": "On a well-formed training file with a skeleton that has an edge and v-structures that do not contradict each other, the command succeeds for every schedule of the tests; the structure file names every arrow and every undirected edge of one partially directed graph with the skeleton, the v-structures and their consequences, and the printed distance is the number of pairs of variables on which this graph differs from the class of the reference network.  If the tests answer like the reference graph, the distance is 0.  This holds for a significance level between 0 and 1; with any other level and at least two variables the command ends the program before writing anything.", "quantifier": "every training file, reference file, significance level, group size, schedule of the parallel tests", "why_tests_cant": "The command composes loaders, tests, orientation, file writing and comparison; an end-to-end test sees a few data sets and one schedule each.", "anchors": ["src/fastpgm/fastpgm_api/fastpgm_api.cpp:BNSL_PCStable"]}
{"id": "C76", "title": "The learning command writes the smoothed frequencies of the learned graph", "statement": "Besides what C75 says, the parameter file of the command has, for each variable, value and configuration of the parents in the learned graph, one line with the relative frequency in the training file smoothed by one.  As in C75, a significance level outside the range 0 to 1 ends the program.", "quantifier": "every training file, reference file, significance level, group size, schedule", "why_tests_cant": "The numbers depend on graph and data through several index computations; tests compare few files.", "anchors": ["src/fastpgm/fastpgm_api/fastpgm_api.cpp:BNL_PCStable"]}
{"id": "C77", "title": "The classification command writes the completed network and prints its accuracy", "statement": "If the command ends regularly, the printed accuracy is that of C70, whatever is saved.  On a training file with consistent tests and a skeleton that is not complete, for every test file the structure file names the arrows of an acyclic completion of the learned graph in which ROOT is the only parent of one variable in every connected part, and the parameter file holds the smoothed frequencies in the training table completed by the drawn values of ROOT.  A significance level outside the range 0 to 1 ends the program if there are at least two variables.", "quantifier": "every training and test file, significance level, group size, schedule, sequence of drawn values", "why_tests_cant": "The output combines all phases; the conditions under which the command fails depend on the number of nodes and edges that are found, not on the code path a test takes.", "anchors": ["src/fastpgm/fastpgm_api/fastpgm_api.cpp:C_PCStable_JT"]}
{"id": "C78", "title": "The program runs the chosen command on the named files and changes nothing else", "statement": "From the command line and the files: job 0, 1, 2, 4, 5 with a supported method does what the command of the API says with the files of the data directory, prints its result and writes its files beside the training file or the network file.  However the run ends, no other file changes, and files are only written where that is allowed.  An unaccepted command line, an announced unsupported method or a missing first file ends the program with nothing changed.", "quantifier": "every command line, file system, random numbers, schedules and outcomes, including failing runs", "why_tests_cant": "The absence of changes to all other files under all inputs and failures cannot be observed by running cases; the combination of options, files and failures is unbounded.", "anchors": ["src/fastpgm/main.cpp:main", "src/fastpgm/fastpgm_api/fastpgm_api.cpp"]}
{"id": "C79", "title": "A run depends only on the files named by its options, and a repeated run changes nothing", "statement": "Two file systems that agree on the training, test, network, reference and distribution files named by the options give the same result, and every file ends the same or is left alone in both.  If no file that is read may be written, running again gives the same result and leaves all files as they are.", "quantifier": "every command line, pair of file systems, random numbers, schedules and outcomes, including failing runs", "why_tests_cant": "Independence of all other files is a relation between arbitrary pairs of runs.", "anchors": ["src/fastpgm/main.cpp:main", "src/fastpgm/fastpgm_api/fastpgm_api.cpp"]}
{"id": "C80", "title": "Table sizes and indices stay within 32-bit integers exactly for representable sizes", "statement": "Cumulative levels, table sizes and table indices are computed without overflow if the number of configurations is below 2^31.  Marginalisation, extension and reduction of a table give the mathematical result if the number of entries times the number of variables is below 2^31, loading evidence if in addition the sizes of all tables involved add up to less than 2^31, and counting for a conditional independence test if the number of cells is below 2^31; in all other cases the behaviour is undefined.", "quantifier": "all dimensions, tables, variable lists, observations and data sets", "why_tests_cant": "Overflow shows only with tables of gigabytes, which unit tests do not build; that all intermediate products and offsets are in range below the limit holds for infinitely many shapes.", "anchors": ["src/fastpgm/PotentialTableBase.cpp:ConstructCumLevels", "src/fastpgm/PotentialTableBase.cpp:TableMarginalization", "src/fastpgm/PotentialTableBase.cpp:TableExtension", "src/fastpgm/PotentialTableBase.cpp:TableReduction", "src/fastpgm/inference/JunctionTree.cpp:LoadEvidenceToNodesOptimized", "src/fastpgm/structure_learning/CellTable.cpp:Counts3D"]}
{"id": "C81", "title": "The learned graph states exactly what the independence tests determine", "statement": "If the answers of the independence tests are the d-separations of some directed acyclic graph, the graph returned by the PC learner has the arrow x -> y exactly if every directed acyclic graph with the same answers has it, the undirected edge x - y exactly if such graphs with x -> y and with y -> x exist, and no edge exactly if no such graph has one.  Directed acyclic graphs have equal adjacencies and v-structures exactly if they have the same d-separations, and GetSHD between a learned graph with an undirected edge and a network is 0 exactly if both have the same independences (where the labels of C58 are right).", "quantifier": "all directed acyclic graphs, depths, schedules, batchings, group sizes", "why_tests_cant": "It quantifies over all graphs that give the same test results; a test compares with one graph.", "anchors": ["src/fastpgm/structure_learning/PCStable.cpp:StructLearnCompData", "src/fastpgm/structure_learning/PCStable.cpp:OrientVStructure", "src/fastpgm/structure_learning/PCStable.cpp:OrientImplied", "src/fastpgm/structure_learning/BNSLComparison.cpp:GetSHD"]}
{"id": "C82", "title": "All ways of passing the messages give the same tables", "statement": "Loading the evidence and passing the messages by Collect and Distribute (the calls in the program), by Collect2 and Distribute2, by Collect3 and Distribute3, or with the plain level operations SeparatorLevelCollection and CliqueLevelDistribution leaves the same tables in all cliques and separators, or fails in the same way; so does every other order of the messages in which a node sends to the root after it has heard all downstream neighbours and away from it after it has heard its upstream neighbour.  The recursive version ends.  The marginals read off afterwards are the conditional distributions given the evidence.", "quantifier": "all connected networks, non-negative tables, iteration orders of the containers, evidence (also of probability 0), orders of messages and of tasks run one after the other", "why_tests_cant": "Most of the alternatives are not called in the program and cannot be reached by a test of the API; the orders of messages in a tree are exponentially many.", "anchors": ["src/fastpgm/inference/Clique.cpp:Collect2", "src/fastpgm/inference/Clique.cpp:Collect3", "src/fastpgm/inference/Clique.cpp:Distribute2", "src/fastpgm/inference/Clique.cpp:Distribute3", "src/fastpgm/inference/Clique.cpp:UpdateMessage", "src/fastpgm/inference/Separator.cpp:UpdateMessage", "src/fastpgm/inference/JunctionTree.cpp:MessagePassingUpdateJT", "src/fastpgm/inference/JunctionTree.cpp:SeparatorLevelCollection", "src/fastpgm/inference/JunctionTree.cpp:CliqueLevelDistribution"]}
{"id": "C83", "title": "The junction tree answers exactly for evidence of positive probability", "statement": "On a tree built from a connected network with non-negative tables, loading evidence on distinct nodes and passing the messages divides 0 by 0 exactly if the evidence has probability 0 under the network; then all queries (PredictUseJTInfer in both modes, every query node) end in NaN, otherwise none does.", "quantifier": "all connected networks, non-negative tables, iteration orders of the containers, evidence with values in range", "why_tests_cant": "Whether a set of observations is impossible depends on all tables together; no finite set of evidence shows that NaN cannot come up for possible evidence, or always does for impossible evidence.", "anchors": ["src/fastpgm/inference/JunctionTree.cpp:PredictUseJTInfer", "src/fastpgm/inference/JunctionTree.cpp:Collect", "src/fastpgm/PotentialTableBase.cpp:Normalize", "src/fastpgm/inference/Inference.cpp:ArgMax"]}
{"id": "C84", "title": "Rounding changes the answers of the junction tree by a bounded number of roundings", "statement": "For a connected network with non-negative tables there are a number N and a range of numbers, the same for all questions, such that for every machine arithmetic whose additions, multiplications and divisions are accurate up to a factor rho <= 2 and do not overflow or underflow in that range, construction and every query with evidence of positive probability succeed and each returned probability differs from the exact conditional probability by at most the factor rho^N, even if the tables of the network are themselves rounded; the predicted label is the exact one if the most probable value leads by more than rho^(2N). IEEE doubles are such an arithmetic with rho = 1 + 2^-52 and the range 2^-1022 to 2^1023.", "quantifier": "all connected networks, non-negative tables, iteration orders of the containers, evidence of positive probability, query nodes and machine arithmetics", "why_tests_cant": "A test compares a few answers on one machine with a tolerance; it cannot show that errors do not pile up for other evidence, other networks or another rounding rule.", "anchors": ["src/fastpgm/inference/JunctionTree.cpp:PredictUseJTInfer", "src/fastpgm/inference/JunctionTree.cpp:Collect", "src/fastpgm/inference/JunctionTree.cpp:Distribute", "src/fastpgm/PotentialTableBase.cpp:TableMultiplication", "src/fastpgm/PotentialTableBase.cpp:Normalize", "src/fastpgm/inference/Inference.cpp:ArgMax"]}
{"id": "C85", "title": "The answers of the junction tree do not depend on threads", "statement": "With any positive number of threads, any distribution of the loop iterations over them and any interleaving of their accesses to memory, evidence loading and message passing have no data race, always end, and leave exactly the tables that the sequential execution leaves; so every query has exactly one possible outcome, which is that of the sequential query: the exact posterior and the first most probable value if the evidence has positive probability, and the same fault otherwise. The same holds for a test run over a data set.", "quantifier": "all connected networks, non-negative tables, iteration orders of the containers, evidence with values in range, queries, numbers of threads, schedules and interleavings", "why_tests_cant": "A run shows one interleaving; races that depend on the schedule, the number of threads or the sizes of the tables may never show in a test.", "anchors": ["src/fastpgm/inference/JunctionTree.cpp:LoadDiscreteEvidence", "src/fastpgm/inference/JunctionTree.cpp:SeparatorLevelDistribution", "src/fastpgm/inference/JunctionTree.cpp:SeparatorLevelCollection", "src/fastpgm/inference/JunctionTree.cpp:CliqueLevelCollection", "src/fastpgm/inference/JunctionTree.cpp:CliqueLevelDistribution", "src/fastpgm/inference/JunctionTree.cpp:Collect", "src/fastpgm/inference/JunctionTree.cpp:Distribute", "src/fastpgm/inference/JunctionTree.cpp:PredictUseJTInfer", "src/fastpgm/PotentialTableBase.cpp:TableMarginalizationMain", "src/fastpgm/PotentialTableBase.cpp:TableExtensionMain", "src/fastpgm/PotentialTableBase.cpp:TableReductionMain"]}
{"id": "C86", "title": "Structure learning gives the same skeleton with any number of threads", "statement": "With any positive number of threads, any distribution of the iterations over them and any interleaving of their accesses to memory, the skeleton phase has no data race, ends, and gives the same edges, adjacency lists and separating sets, which are those of the sequential execution. (False in the code for two or more threads: the counter of the tests and the map of separating sets are updated without protection. Races are possible at these two places only.)", "quantifier": "all independence tests, numbers of variables, depths, group sizes, batch sizes, numbers of threads, schedules and interleavings", "why_tests_cant": "A run shows one interleaving; a lost update or a corrupted map depends on timing and may never show in a test.", "anchors": ["src/fastpgm/structure_learning/PCStable.cpp:133-177", "src/fastpgm/structure_learning/PCStable.cpp:280-322", "src/fastpgm/structure_learning/PCStable.cpp:526-614", "include/fastpgm/structure_learning/PCStable.h:27"]}
{"id": "C87", "title": "The reported number of independence tests is the number the algorithm needs", "statement": "With one thread the number of tests printed by PC-stable is determined by the verdicts, the depth bound and the group size g: one per pair at level 0, and at level d for every pair adjacent at the start of the level the subsets of size d of the other neighbours of its first node, in lexicographic order and groups of g, up to the group with the first independence, then (if none) those of its second node. It does not depend on the batch size or on the order of the iterations. One by one (g = 1) is the minimum; a group size g costs at most 2(g-1) further tests for each pair and level; the number is at most the number of pairs plus, per level, the sum over the adjacent pairs of the numbers of subsets.", "quantifier": "all independence tests with consistent verdicts, numbers of variables, depths, group sizes, batch sizes and orders", "why_tests_cant": "A test compares the counter for one data set with a number obtained by running the same program.", "anchors": ["src/fastpgm/structure_learning/PCStable.cpp:145", "src/fastpgm/structure_learning/PCStable.cpp:399-494", "src/fastpgm/structure_learning/PCStable.cpp:526-614", "src/fastpgm/structure_learning/PCStable.cpp:57"]}
{"id": "C88", "title": "The test statistic measures the dependence in the data", "statement": "For every data set, G² is never negative, it is 0 exactly if N(x,y,z) N(z) = N(x,z) N(y,z) for all values, it is at most 2 m log |x| and 2 m log |y| for m instances, and a table without degrees of freedom shows no dependence. So the p-value is 1 exactly for data without dependence, such data are declared independent at every level below 1, and too few instances can never show a dependence.", "quantifier": "all data sets, pairs of variables and conditioning sets; every function with the basic properties of the chi-square distribution function", "why_tests_cant": "Only finitely many contingency tables can be tried, and a sign or normalisation error of the statistic may not show in the verdict.", "anchors": ["src/fastpgm/structure_learning/IndependenceTest.cpp:65-155", "src/fastpgm/structure_learning/IndependenceTest.cpp:295-364"]}
{"id": "C89", "title": "Parameter learning maximises the smoothed likelihood", "statement": "For every network and data set the learned tables are conditional probability tables, and among all conditional probability tables for the network they are the only maximum of the likelihood of the data times the smoothing weight (every combination of a value and parent values seen alpha times more). Without smoothing, and if every parent configuration occurs, they are the maximum likelihood estimate.", "quantifier": "all networks, data sets, numbers of values and smoothing parameters; all competing families of conditional tables", "why_tests_cant": "The comparison is with uncountably many alternative tables.", "anchors": ["src/fastpgm/parameter_learning/ParameterLearning.cpp:10-109"]}
{"id": "C90", "title": "The learned network does not depend on row order or value names", "statement": "If the training rows are put in another order and the texts of the values are renamed (different texts of a column by different ones), structure learning gives exactly the same network - the same edges with the same directions, the same structure file and the same distance - and the learned probability of a text given the texts of the parents is the probability of the renamed texts.", "quantifier": "all training files, all reorderings, all injective renamings per column, all schedules of the parallel loops in both runs, group size 1 (or up to 8 under the condition of C26)", "why_tests_cant": "The statement compares runs on all reorderings and renamings of all files; a test compares two.", "anchors": ["src/fastpgm/structure_learning/PCStable.cpp:26-257", "src/fastpgm/structure_learning/IndependenceTest.cpp:60-236", "src/fastpgm/Dataset.cpp:200-330"]}
{"id": "C91", "title": "Classification does not depend on the names of the values", "statement": "If the texts of the training and the test file are replaced consistently, the classification command prints the same accuracy. The order of the training rows, however, matters: with equally probable classes it decides which one is predicted.", "quantifier": "all pairs of files, all consistent replacements; for the order a concrete pair of files", "why_tests_cant": "All replacements of the texts of all files.", "anchors": ["src/fastpgm/fastpgm_api/fastpgm_api.cpp:96-135", "src/fastpgm/Dataset.cpp:200-420"]}
{"id": "C92", "title": "Irrelevant evidence does not change an answer", "statement": "If the nodes of the evidence F are each d-separated from the query node by the nodes of the evidence E, the junction tree gives the same distribution and the same label for the query with evidence E and with evidence E and F together, provided this evidence is possible.", "quantifier": "all connected networks built by the edge operations, all conditional tables, all evidence lists E and F on distinct nodes, all query nodes, all orders of the edges and cliques during construction", "why_tests_cant": "d-separation speaks about all paths of a network and the equality about all tables; tests look at single networks with single tables.", "anchors": ["src/fastpgm/inference/JunctionTree.cpp:40-300", "src/fastpgm/inference/JunctionTree.cpp:380-700"]}
{"id": "C93", "title": "Only the ancestors' tables matter for an answer", "statement": "If two networks have the same tables on a set of nodes that is closed under parents in both of them and contains the query and the evidence, the junction trees of both give the same distribution for the query, whatever the edges and tables of the other nodes are.", "quantifier": "all pairs of connected networks on the same nodes, all conditional tables, all parent-closed sets, all possible evidence in the set, all queries in the set", "why_tests_cant": "Compares all pairs of networks that agree on some ancestral set.", "anchors": ["src/fastpgm/inference/JunctionTree.cpp:40-300", "src/fastpgm/inference/JunctionTree.cpp:380-700"]}
{"id": "C94", "title": "Networks with continuous nodes stay sound under edge operations", "statement": "Starting from any list of discrete and continuous nodes, a history of AddDirectedEdge, DeleteDirectedEdge, AddUndirectedEdge and DeleteUndirectedEdge with legal indices that adds no present edge again ends the program exactly if it adds an edge from a continuous to a discrete node. Otherwise the directed edges form no cycle; parent sets, child sets and edge list agree; no discrete node has a continuous parent; and each node lists each of its continuous and each of its discrete parents exactly once. AddDirectedEdge returns true exactly when the edge closes no cycle. GetTopoOrd returns a topological order if all nodes are discrete (with a continuous node it returns an empty order, a finding). If no directed edge is deleted and no addition rejected, every node records exactly the assignments of its discrete parents to values.", "quantifier": "all numbers and kinds of nodes, all histories of edge operations", "why_tests_cant": "The consistency of five redundant records of the edges after arbitrary histories over both kinds of nodes cannot be covered by samples.", "anchors": ["src/fastpgm/ContinuousNode.cpp:5-42", "src/fastpgm/Node.cpp:40-207", "src/fastpgm/Network.cpp:169-268", "src/fastpgm/Network.cpp:371-541"]}
{"id": "C95", "title": "A copy of a network equals its source", "statement": "The copy made by the copy constructor of Network after any history of edge operations has the same nodes, parents and children, returns the same topological order, and answers AddDirectedEdge like the source. (The full claim, that the copy is equivalent to the source, is false: the edge list is lost, so deletions fail on the copy.)", "quantifier": "all kinds of nodes, all histories of edge operations", "why_tests_cant": "Equality of behaviour of two objects under all later calls cannot be settled by finitely many calls.", "anchors": ["src/fastpgm/Network.cpp:31-54"]}
{"id": "C96", "title": "Tables of importance sampling and look-up of entries", "statement": "UniformDistribution makes every column of the importance table sum to 1. NormalizeICPT and NormalizePtScore divide every column with positive total by it and leave the others. GetReducedICPTPotentials returns the column selected by the parents' values. GetReducedPotential and GetReducedIndexAndPotential return the entry of the given assignment, the latter with its index. GetMarginalizedProbabilities adds to the output the sums over the parents' values (and replaces it for a node without parents, a finding).", "quantifier": "all table shapes, entries, evidence vectors", "why_tests_cant": "The index arithmetic must be right for all dimensions and all numbers of parents.", "anchors": ["src/fastpgm/PotentialTableBase.cpp:426-512", "src/fastpgm/PotentialTableBase.cpp:753-763", "src/fastpgm/PotentialTableBase.cpp:1077-1128"]}
{"id": "C97", "title": "Data with continuous variables", "statement": "LoadCSVTrainingData with continuous columns succeeds exactly if the file loads as purely discrete data and every text of a continuous column is a number; the result then has the same shape, the same codes in the discrete columns, and in a continuous column the number that the text denotes. With no continuous variable all loaders and StoreCSVData behave as the discrete model. LoadLIBSVMTestingData gives every variable a value of its kind if variable 0 and the class variable are of the same kind. LoadLIBSVMTrainingData with a continuous variable reads a null pointer on every file that loads as discrete data, and StoreCSVData never stores a float (findings).", "quantifier": "all files, all sets of continuous variables, every float type and every stof", "why_tests_cant": "Two runs over an arbitrary file are compared.", "anchors": ["src/fastpgm/Dataset.cpp:55-162", "src/fastpgm/Dataset.cpp:164-299", "src/fastpgm/Dataset.cpp:389-503", "src/fastpgm/Dataset.cpp:614-692", "include/fastpgm/common.h:28-39"]}
{"id": "C98", "title": "The answers to different queries belong to one distribution", "statement": "The answers of one junction tree to different queries fit together. Bayes' rule: P(a|E)P(b|E,a) = P(b|E)P(a|E,b). Total probability: P(b|E) is the mean of the answers P(b|E,a) weighted with P(a|E). Chain rule: asking for one node after the other with the previous ones observed gives numbers whose product is the product of the network's table entries.", "quantifier": "all networks, tables, evidence of positive probability, pairs of nodes", "why_tests_cant": "Relations between the answers to unboundedly many different queries.", "anchors": ["src/fastpgm/inference/JunctionTree.cpp:PredictUseJTInfer", "src/fastpgm/inference/JunctionTree.cpp:CalculateMarginalProbability"]}
{"id": "C99", "title": "The samples are independent draws from the joint distribution", "statement": "If the random numbers are independent and uniform in (0, 1], the probability that generating m samples returns the assignments x_1, ..., x_m is the product of their joint probabilities, each one the product over the nodes of P(value | values of the parents).", "quantifier": "all networks built by edge operations, conditional distributions, numbers of samples, sample lists", "why_tests_cant": "A statement about a probability, over all sample lists; sampling tests see frequencies of a few lists.", "anchors": ["src/fastpgm/SampleSetGenerator.cpp:GenerateSamplesBasedOnCPTs"]}
{"id": "C100", "title": "Learning from samples recovers the parameters", "statement": "Parameters learned, for the same graph and with a positive prior count, from m samples of a network approach those of the network: an entry whose parents' values have probability q > 0 is off by eps or more with probability at most (4 + 16/eps^2)/(m q), once m q eps is at least 4 * prior count * number of values; so the probability that all such entries are closer than eps tends to 1.", "quantifier": "all networks, conditional distributions, prior counts, eps, numbers of samples", "why_tests_cant": "A limit over the number of samples and a probability over all random draws.", "anchors": ["src/fastpgm/SampleSetGenerator.cpp:GenerateSamplesBasedOnCPTs", "src/fastpgm/parameter_learning/ParameterLearning.cpp:LearnParamsKnowStructCompData"]}
{"id": "C101", "title": "Learning from samples recovers the answers", "statement": "Draw m samples from a network, learn the parameters for the same graph from them with a positive prior count, build a junction tree from the learned tables and query it: the probability that the answer differs by eta or more from the conditional probability in the network the samples came from tends to 0 as m grows, for every legal evidence of positive probability and every other node and value.", "quantifier": "all connected networks, conditional distributions (zero entries allowed), prior counts, evidence, queries, eta", "why_tests_cant": "A limit over the number of samples and a probability over all random draws, through three components.", "anchors": ["src/fastpgm/SampleSetGenerator.cpp:GenerateSamplesBasedOnCPTs", "src/fastpgm/parameter_learning/ParameterLearning.cpp:LearnParamsKnowStructCompData", "src/fastpgm/inference/JunctionTree.cpp:CalculateMarginalProbability"]}
{"id": "C102", "title": "Dependence is found in enough samples", "statement": "Let two variables be dependent given a set of others under the distribution of a network. The G² statistic of m samples is at least m/2 times the squared dependence shown by any cell, and the probability that the test on m samples does not declare the variables dependent is at most 64/(m D²), D being the dependence of one combination of values, as soon as a statistic of m D²/8 is significant. At a fixed significance level the probability that the learner loses an edge of the network (whose ends are dependent given every set) tends to 0 as m grows.", "quantifier": "all networks, distributions, pairs and sets of variables, numbers of samples, levels, schedules", "why_tests_cant": "A bound on a probability over all random draws for every number of samples.", "anchors": ["src/fastpgm/SampleSetGenerator.cpp:GenerateSamplesBasedOnCPTs", "src/fastpgm/structure_learning/IndependenceTest.cpp:ComputeGSquareXYZ", "src/fastpgm/structure_learning/PCStable.cpp:StructLearnByPCStable"]}
{"id": "C103", "title": "The graph is recovered from enough samples", "statement": "Let the graph of a network be faithful to its distribution and no node have depth or more parents. If the significance level tends to 0 slowly as the number m of samples grows, the probability that some independence test on the m samples gives a wrong verdict tends to 0, and so does the probability that the learner does not return a graph with exactly the adjacencies of the network whose arrows are exactly its compelled edges, for every order, schedule and batching. For independent variables the failure probability of one test is at most |Omega|/kappa for kappa up to m q²/4, if a statistic of 256 C kappa/q³ is not significant.", "quantifier": "all networks and distributions with a faithful graph, significance levels that vanish slowly, schedules", "why_tests_cant": "A limit over the number of samples of a probability over all random draws, through sampling, all tests, the search and the orientation.", "anchors": ["src/fastpgm/SampleSetGenerator.cpp:GenerateSamplesBasedOnCPTs", "src/fastpgm/structure_learning/IndependenceTest.cpp:IndependenceResult", "src/fastpgm/structure_learning/PCStable.cpp:StructLearnCompData"]}
{"id": "C104", "title": "The independence test with the chi-square distribution", "statement": "With exact arithmetic and the true chi-square distribution function, the p-value of every independence test is the probability that a chi-square variable with the computed degrees of freedom exceeds the G² statistic; it is positive, at most 1, and 1 exactly if the data show no dependence; at level 0 every verdict is independence and at level 1 every verdict with a degree of freedom is dependence. At every fixed positive level the probability that the learner loses an edge of the network (whose ends are dependent given every set) tends to 0 with the number m of samples, with an explicit number of samples for one test, and at level 1/(m+1) the probability that the learner does not recover the graph up to equivalence tends to 0.", "quantifier": "all networks, parameters, data sets, variables, conditioning sets and levels; limits over all numbers of samples", "why_tests_cant": "a statement about an analytic distribution function and about limits of probabilities", "anchors": ["src/fastpgm/structure_learning/IndependenceTest.cpp:ComputeGSquareXYZ", "src/fastpgm/structure_learning/IndependenceTest.cpp:ComputeGSquareXY", "src/fastpgm/structure_learning/PCStable.cpp:StructLearnByPCStable"]}
{"id": "C105", "title": "Classification with a learned network becomes optimal", "statement": "Samples are drawn from a network, the parameters are learned from them for its graph with a positive alpha, and a junction tree built from the learned tables predicts one variable. For every evidence of positive probability the probability that the predicted label is by more than η less probable than another value tends to 0 with the number of samples; a value that is more probable than all others is the predicted label with probability tending to 1; and the probability that some classifier is by more than η more accurate than the learned network tends to 0.", "quantifier": "all networks, parameters, evidence, class variables, classifiers and η > 0; limit over all numbers of samples", "why_tests_cant": "a limit of probabilities over all random draws", "anchors": ["src/fastpgm/SampleSetGenerator.cpp:GenerateSamplesBasedOnCPTs", "src/fastpgm/parameter_learning/ParameterLearning.cpp:LearnParamsKnowStructCompData", "src/fastpgm/inference/JunctionTree.cpp:PredictUseJTInfer"]}
{"id": "C106", "title": "The reported accuracy estimates the true accuracy", "statement": "For a junction tree and a test set of m ≥ 20 samples of a network, the reported accuracy deviates from the probability that the predicted label is right by δ or more with probability at most 1/(4 m δ²). Hence a network trained on enough samples reaches, on a test set, nearly the accuracy of the best classifier.", "quantifier": "all networks, trees, class variables, sizes of the test set and δ > 0", "why_tests_cant": "a bound on a probability over all random test sets", "anchors": ["src/fastpgm/inference/Inference.cpp:Accuracy", "src/fastpgm/inference/Inference.cpp:EvaluateAccuracy", "src/fastpgm/inference/JunctionTree.cpp:Predict"]}
{"id": "C107", "title": "Learning and answering with rounded arithmetic", "statement": "Parameter learning with double arithmetic returns, for every value and parent configuration, a number within a factor 1 + 2^-52 of the smoothed relative frequency. Learning and then answering with rounded arithmetic gives answers within a factor ρ^bound of the exact conditional probabilities under the smoothed relative frequencies, with a bound that does not depend on the arithmetic; a value that is more probable by more than that is the predicted label.", "quantifier": "all datasets, graphs, alpha ≥ 1, evidence, query variables, and machine arithmetics of relative error ρ - 1", "why_tests_cant": "a bound on rounding errors for all inputs and all arithmetics", "anchors": ["src/fastpgm/parameter_learning/ParameterLearning.cpp:LearnParamsKnowStructCompData", "src/fastpgm/inference/JunctionTree.cpp:CalculateMarginalProbability", "src/fastpgm/inference/JunctionTree.cpp:PredictUseJTInfer"]}
{"id": "C108", "title": "Answers of a network whose graph is not that of the data", "statement": "Draw samples from a network, learn the tables of a connected network with any other graph from them, and ask that network for the probability of a value given evidence: with growing number of samples the answer tends in probability to the one of the distribution that has the other graph's parents and the true conditional probabilities.", "quantifier": "all networks and distributions, all graphs of the learned network, all evidence that has positive probability, all query values, all alpha ≥ 1 and all draws", "why_tests_cant": "a statement about limits of probabilities over all distributions and pairs of graphs", "anchors": ["src/fastpgm/parameter_learning/ParameterLearning.cpp:LearnParamsKnowStructCompData", "src/fastpgm/inference/JunctionTree.cpp:JunctionTree", "src/fastpgm/inference/JunctionTree.cpp:CalculateMarginalProbability", "src/fastpgm/SampleSetGenerator.cpp:GenerateSamples"]}
{"id": "C109", "title": "Equivalent graphs give the same answers", "statement": "If the graph the parameters are learned for has the adjacencies and v-structures of the graph of the network the samples are drawn from, the answers of the learned network tend in probability to the true conditional probabilities; the true distribution is the product of its conditional probabilities along either graph.", "quantifier": "all networks, equivalent graphs, distributions, evidence of positive probability and query values", "why_tests_cant": "all pairs of equivalent graphs and all distributions, and a limit", "anchors": ["src/fastpgm/parameter_learning/ParameterLearning.cpp:LearnParamsKnowStructCompData", "src/fastpgm/inference/JunctionTree.cpp:JunctionTree", "src/fastpgm/inference/JunctionTree.cpp:CalculateMarginalProbability", "src/fastpgm/SampleSetGenerator.cpp:GenerateSamples"]}
{"id": "C110", "title": "From samples to answers", "statement": "Draw samples from a connected faithful network, learn the graph with completion to a DAG, learn the parameters from the same samples and query the result. The probability that the learned graph is an acyclic orientation of the true adjacencies with the compelled directions, and the answer is close to the one under the true distribution projected to that graph, tends to 1. If all edges are compelled, the learned graph is the true one and the answers tend to the true conditional probabilities; they do so whenever the completion introduces no new v-structure. Otherwise they can tend to a wrong number.", "quantifier": "all faithful networks with a non-adjacent pair, orders, schedules, batch sizes, random bits, evidence of positive probability and query values", "why_tests_cant": "a limit over all distributions, schedules and random completions", "anchors": ["src/fastpgm/structure_learning/PCStable.cpp:StructLearnByPCStable", "src/fastpgm/structure_learning/PCStable.cpp:StructLearnCompData", "src/fastpgm/structure_learning/PCStable.cpp:DirectLeftEdges", "src/fastpgm/parameter_learning/ParameterLearning.cpp:LearnParamsKnowStructCompData", "src/fastpgm/inference/JunctionTree.cpp:CalculateMarginalProbability"]}
{"id": "C111", "title": "Commands release what they allocate", "statement": "Each API command (structure learning, structure and parameter learning, inference, classification, sampling) uses no object after its release, releases none twice, none in the wrong form (delete for new[]) or through a base class without virtual destructor, and at the end nothing it allocated is still live. FALSE for the code: the nodes of a network are deleted through Node*, which has no virtual destructor. With that repaired the claim holds for inference, classification and sampling, and for the learning commands exactly the learner objects are left.", "quantifier": "all numbers of rows, variables and nodes, all junction tree shapes, with and without reference network, whichever destructors are virtual", "why_tests_cant": "undefined behaviour at deletion usually shows no effect; needs every path and every size", "anchors": ["src/fastpgm/fastpgm_api/fastpgm_api.cpp:BNSL_PCStable", "src/fastpgm/fastpgm_api/fastpgm_api.cpp:BNL_PCStable", "src/fastpgm/Network.cpp:~Network", "include/fastpgm/Node.h:Node", "src/fastpgm/structure_learning/PCStable.cpp:~PCStable", "src/fastpgm/inference/JunctionTree.cpp:~JunctionTree"]}
{"id": "C112", "title": "Choice generators are released exactly once", "statement": "During the skeleton phase of PC-stable the pointer to the choice generator of an edge is read, written and deleted only while it points to a live generator, though it starts uninitialised; every generator is released before the phase ends; and the skeleton and separating sets are the same as if the edge contained its generator.", "quantifier": "all tests, group sizes, batch sizes, schedules, orders of the pairs and numbers of variables", "why_tests_cant": "depends on the interleaving of edges over the rounds of a level and on which tests succeed", "anchors": ["src/fastpgm/structure_learning/PCStable.cpp:CheckEdge", "src/fastpgm/structure_learning/PCStable.cpp:Testing", "src/fastpgm/structure_learning/PCStable.cpp:SearchAtDepth"]}
{"id": "C113", "title": "Tests of conditional independence use only initialised, live memory", "statement": "A test of conditional independence (single or grouped) reads no entry of a new[] array before writing it, uses no array outside its bounds or after its release and releases none twice, unless the arguments are such that an index is out of range already; its result does not depend on what new[] returns, and memory of other owners is unchanged.", "quantifier": "all data sets, dimensions, variables, conditioning sets, group sizes and states of the memory", "why_tests_cant": "uninitialised reads give plausible numbers in a test run; needs every size and shape", "anchors": ["src/fastpgm/structure_learning/CellTable.cpp:Counts3D", "src/fastpgm/structure_learning/CellTable.cpp:Counts3DGroup", "src/fastpgm/structure_learning/CellTable.cpp:Counts2D", "src/fastpgm/structure_learning/CellTable.cpp:FillTableGroup", "src/fastpgm/structure_learning/IndependenceTest.cpp:ComputeGSquareXYZ", "src/fastpgm/structure_learning/IndependenceTest.cpp:ComputeGSquareXYZGroup", "src/fastpgm/structure_learning/IndependenceTest.cpp:ComputeGSquareXY"]}
{"id": "C114", "title": "A test releases the tables it allocates", "statement": "When a test of conditional independence has returned, no block it allocated is alive. FALSE for the code: a single test without a degree of freedom returns before releasing its table. All other tests release everything, and after a sequence of tests exactly the tables of those tests are left.", "quantifier": "all data sets, variables, conditioning sets, group sizes, states of the memory and sequences of tests", "why_tests_cant": "a leak has no effect on any result; it depends on which tests have no degree of freedom", "anchors": ["src/fastpgm/structure_learning/IndependenceTest.cpp:ComputeGSquareXYZ", "src/fastpgm/structure_learning/IndependenceTest.cpp:ComputeGSquareXY", "src/fastpgm/structure_learning/CellTable.cpp:~Counts3D", "src/fastpgm/structure_learning/CellTable.cpp:~Counts3DGroup", "src/fastpgm/structure_learning/CellTable.cpp:~Counts2D"]}
{"id": "C115", "title": "Independence tests stay within int exactly below 2^31 cells", "statement": "For a single test the arithmetic on sizes, indices and degrees of freedom stays within int, and the verdict is the specified one, if the contingency table has fewer than 2^31 cells; otherwise the behaviour is undefined. For a group the same holds with the sum of the cells of all its tables: grouping can make tests undefined that are defined one by one. Sufficient: size * d^(depth+2) < 2^31 for variables with at most d values.", "quantifier": "all data sets, dimensions, variables, conditioning sets and group sizes up to 8", "why_tests_cant": "the limit depends on depth, numbers of values and group size; a test cannot allocate such tables", "anchors": ["src/fastpgm/structure_learning/CellTable.cpp:Counts3DGroup", "src/fastpgm/structure_learning/CellTable.cpp:FillTableGroup", "src/fastpgm/structure_learning/CellTable.cpp:Counts2D", "src/fastpgm/structure_learning/IndependenceTest.cpp:ComputeGSquareXYZ", "src/fastpgm/structure_learning/IndependenceTest.cpp:ComputeGSquareXYZGroup", "src/fastpgm/structure_learning/IndependenceTest.cpp:ComputeGSquareXY"]}
{"id": "C116", "title": "The skeleton phase stays within int under stated limits", "statement": "If there are at most 46341 variables and g * D^E < 2^31 (g the group size, D the largest number of values, E the smaller of the number of variables and depth + 1), the skeleton phase of PC-stable does not overflow and gives the skeleton that belongs to the verdicts of the tests, whatever the orders of the parallel loops. With more than 46341 variables its behaviour is undefined whatever the data.", "quantifier": "all data sets, numbers of values, depths, group sizes, batch sizes and schedules", "why_tests_cant": "the number of variables at the limit needs a complete graph of 10^9 edges; the other limit depends on the data", "anchors": ["src/fastpgm/structure_learning/PCStable.cpp:StructLearnByPCStable", "src/fastpgm/Network.cpp:GenerateUndirectedCompleteGraph", "src/fastpgm/structure_learning/PCStable.cpp:Testing"]}
{"id": "C117", "title": "PrintEdges prints the edges of the network", "statement": "After any history of calls that change edges PrintEdges prints every edge once with its direction. FALSE for the code: it prints the first num_edges edges, and the edge operations do not maintain num_edges, so it prints none or throws; it is right directly after GenerateUndirectedCompleteGraph. CheckEdges prints the number of arrows twice after any history.", "quantifier": "all networks, names and histories of edge operations", "why_tests_cant": "needs all histories; the output is right in the histories the program itself uses", "anchors": ["src/fastpgm/Network.cpp:PrintEdges", "src/fastpgm/Network.cpp:CheckEdges", "src/fastpgm/Network.cpp:GenerateUndirectedCompleteGraph", "src/fastpgm/Network.cpp:AddDirectedEdge", "src/fastpgm/Network.cpp:DeleteUndirectedEdge"]}
{"id": "C118", "title": "Exact inference stays within int under stated limits", "statement": "The junction tree is constructed without overflow exactly if the cliques have together fewer than 2^31 entries and every clique into which a smaller table is multiplied has fewer than 2^31 entries times variables. If twice the number of cliques times the largest clique size is below 2^31 as well, every query with evidence of positive probability is answered without overflow, by the posterior. The total of all clique sizes being small is not enough: a level of separators whose parent cliques, counted once per child, reach 2^31 entries makes every query without evidence overflow.", "quantifier": "all networks, tables, evidence, queries and orders of addresses", "why_tests_cant": "the limits are tables of gigabytes; at the limit the result is undefined rather than wrong", "anchors": ["src/fastpgm/inference/JunctionTree.cpp:SeparatorLevelDistribution", "src/fastpgm/inference/JunctionTree.cpp:CliqueLevelCollection", "src/fastpgm/inference/JunctionTreeStructure.cpp:GetAveAndMaxCliqueSize", "src/fastpgm/inference/JunctionTreeStructure.cpp:AssignPotentials"]}
{"id": "C119", "title": "Rounding changes the G² statistic by a bounded amount and clear verdicts not at all", "statement": "In double arithmetic the statistic of a test with m < 2^31 instances and c non-empty cells differs from the exact G² by at most 2^-52 m (8 (log m + 2) + 2 c log m) and no intermediate result overflows; a test whose exact p-value is farther from alpha than this can move it has the exact verdict; if all tests are clear the learned edges, neighbours and separating sets are those of exact arithmetic, for every number of threads, order of work and admissible group size, and so is the network learned from a training file.", "quantifier": "for all data sets, tests, group sizes, schedules and arithmetics with relative error at most 1/64", "why_tests_cant": "The error grows over the cells of arbitrary tables; tests compare with a tolerance at a few inputs and cannot bound it, nor show that a verdict cannot flip.", "anchors": ["src/fastpgm/structure_learning/IndependenceTest.cpp:IndependenceTest::ComputeGSquareXYZ", "src/fastpgm/structure_learning/IndependenceTest.cpp:IndependenceTest::ComputeGSquareXYZGroup", "src/fastpgm/structure_learning/IndependenceTest.cpp:IndependenceTest::ComputeGSquareXY", "src/fastpgm/structure_learning/IndependenceTest.cpp:IndependenceTest::IndependenceResult"]}
{"id": "C120", "title": "The classification command in doubles prints the accuracy of exact arithmetic when tests and predictions are clear", "statement": "On two well-formed CSV files with at least twenty test rows of known class, C_PCStable_JT with all numbers in rounded arithmetic learns its tables, builds the junction tree and prints, up to one rounding, the fraction of test rows whose class is the most probable value under the exact smoothed frequencies, provided that in each row this value is more probable than the others by a factor greater than rho^(2 bound); if moreover all independence tests are clear (C119), exact arithmetic prints the same fraction, whatever the parallel schedules and junction tree orders of the two runs", "quantifier": "for all file contents, structures learned, draws of ROOT, schedules, junction tree orders, and all arithmetics with relative error rho (rho^3 <= 2) in a range that does not depend on the arithmetic; bound independent of the arithmetic", "why_tests_cant": "A test compares one build on one machine with stored numbers; that no other file, schedule or rounding mode changes the printed accuracy needs an argument over all of them", "anchors": ["src/fastpgm/fastpgm_api/fastpgm_api.cpp:C_PCStable_JT", "src/fastpgm/structure_learning/PCStable.cpp:StructLearnCompData", "src/fastpgm/parameter_learning/ParameterLearning.cpp:LearnParamsKnowStructCompData", "src/fastpgm/inference/JunctionTree.cpp:Predict", "src/fastpgm/inference/Inference.cpp:Accuracy"]}
{"id": "C121", "title": "Parameter learning stays inside 32-bit integers exactly within stated sizes", "statement": "With a positive smoothing parameter alpha, LearnParamsKnowStructCompData run with 32-bit integers gives the smoothed relative frequencies if every table has fewer than 2^31 entries and alpha times the number of values of every variable (including the virtual ROOT) is less than 2^31; otherwise its behaviour is undefined. If the cliques are within the limits of C118 and alpha times each number of values is less than 2^31, then learning, construction of the junction tree, marginals and predictions all run without overflow and give the exact answers. An alpha of at least 2^30 is always undefined when some variable has two values.", "quantifier": "All networks, data sets with fewer than 2^31 instances, positive smoothing parameters, drawn ROOT values, orders of separators and cliques, evidence and queries.", "why_tests_cant": "Overflow depends on sizes that no test data set reaches, and undefined behaviour may go unnoticed when it happens.", "anchors": ["src/fastpgm/parameter_learning/ParameterLearning.cpp:LearnParamsKnowStructCompData", "src/fastpgm/PotentialTableBase.cpp:ConstructPotentialTableWithEmptyPotentials"]}
{"id": "C122", "title": "Integers are written in the usual decimal notation, are read back, and give distinct names", "statement": "Every int that the library writes with to_string (names of unnamed nodes, variables and values, LIBSVM and CSV rows, file names and messages) is written as its digits without leading zeros, after a minus sign if it is negative; stoi reads every such text back as the same int; different numbers have different texts, so unnamed nodes have distinct names.", "quantifier": "All 32-bit integers (the notation and its distinctness for all integers).", "why_tests_cant": "A test compares a few numbers; that no number loses a digit or collides with another is a statement about all of them.", "anchors": ["src/fastpgm/Node.cpp:Node", "src/fastpgm/Dataset.cpp:LoadLIBSVMTrainingData", "src/fastpgm/Dataset.cpp:StoreLIBSVMData", "src/fastpgm/SampleSetGenerator.cpp:OutputLIBSVM"]}
{"id": "C123", "title": "Where the order of values is one that std::set may use", "statement": "Value::operator< is irreflexive and transitive on values that are not NaN; it is a strict weak order exactly if no float among the values is the conversion of two different ints among them, in particular if all ints have at most 24 bits. A configuration whose variables have values of one kind each, none NaN, is strictly and totally ordered. On 2^24, 2^24+1, 2^24+2 and the floats 2^24 and 2^24+2 it is no strict weak order in any rounding mode, and none on a set with a NaN and two comparable values.", "quantifier": "All sets of values, all monotone conversions of int to float.", "why_tests_cant": "A broken order corrupts a set only for particular combinations of values; tests with small integers never meet one.", "anchors": ["include/fastpgm/common.h:Value", "include/fastpgm/common.h:Configuration"]}
{"id": "C124", "title": "The combinations of sets are the choices of one element from each", "statement": "GenAllCombinationsFromSets applied to one or more sets returns exactly the sets that consist of one chosen element from each; if the sets are pairwise disjoint (the possible values of different variables) their number is the product of the sizes. Without a set the result is empty, and afterwards the argument contains only its last set.", "quantifier": "All finite families of finite sets of any element type.", "why_tests_cant": "A test checks a few small families; that no combination is missing or added is a statement about all of them.", "anchors": ["include/fastpgm/common.h:GenAllCombinationsFromSets"]}
{"id": "C125", "title": "CSV test data with continuous variables", "statement": "LoadCSVTestingData with text values succeeds exactly if the text of every cell in a continuous column is a number. It then adds the rows in their order; each holds, in the order of the columns, the number of every continuous cell and, for a discrete cell, the training code of its text, unless the text is empty or did not occur in the training column; then the cell is left out. No variable occurs twice. If no column is continuous the result is that of the discrete loader. An empty cell of a continuous variable makes the loader throw (finding). With numbers as values it succeeds exactly if every cell is a number of the kind of its column, where a cell of a discrete column may be empty, and the rows hold these numbers.", "quantifier": "All training and test tables, all sets of continuous variables, every float type and every stof.", "why_tests_cant": "The loaded rows depend on two arbitrary files; tests compare a few pairs.", "anchors": ["src/fastpgm/Dataset.cpp:15-18", "src/fastpgm/Dataset.cpp:511-603"]}
{"id": "C126", "title": "Value codes of network files, repeated names included", "statement": "After any LoadXMLBIFFile that ends normally, the code of a value name is its last position among the VALUE elements of its variable and the number of values is the number of different names. All codes are below the number of values exactly if no name is repeated; a file with a repeated name is accepted (finding). In a BIF file the number of values is the number the type line declares; repeated names are counted each time, the code of a name is its last position and is always below the number of values.", "quantifier": "All XMLBIF documents, also malformed ones, for which the load ends normally; all type lines of BIF files that are read without failure.", "why_tests_cant": "Tests load well-formed files; the codes of a malformed file show only later, as indices that are out of range.", "anchors": ["src/fastpgm/XMLBIFParser.cpp:33-71", "src/fastpgm/CustomNetwork.cpp:90-107"]}
{"id": "C127", "title": "AssignNodeOrder gives an order of all nodes", "statement": "AssignNodeOrder(\"dataset-ord\") returns 0, ..., n-1; \"best\" returns no order; \"random\" returns an order in which every node occurs exactly once, whatever numbers rand() returns; any other text ends the program. Every order of the nodes is a possible result of \"random\" and results from exactly one of the n! sequences of choices, so all orders are equally likely if the choices are uniform.", "quantifier": "All numbers of nodes, all texts, all sequences of random numbers, all orders.", "why_tests_cant": "The result depends on the time; a test sees a few of n! orders and cannot see that none is missing or doubled.", "anchors": ["src/fastpgm/structure_learning/StructureLearning.cpp:39-65"]}
