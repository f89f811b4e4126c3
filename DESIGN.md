# DESIGN

Formal model of ktye/iv (an APL interpreter in Go) in Lean 4. The plan was written before the proofs (see git history) and is kept current here.

## Approach

* Go slices become `List`, `int` becomes `Nat`/`Int` (unbounded) unless the property is about wrap-around (then 64-bit arithmetic, `Model/Int.lean`).
* Errors are values: `Res α = Except Fail α` with `Fail.err` (an error return) and `Fail.panic` (a Go run-time panic), so 'rejected' and 'crashes' stay distinct. `Apl.Eval` recovers panics into errors.
* Loops that walk an array with an odometer are modelled as such loops (`Model/Shape.lean`), and proved equal to pointwise specifications.
* Function arguments of operators are arbitrary fallible functions in an arbitrary lawful monad, so the theorems also fix how often and in which order they are called.
* The interpreter (`Model/Interp.lean`) is a fuelled evaluator over the Go program's own data: expressions, environments with parent links, handler tables. Go code of primitives is an interaction tree (`Act`) that may call back functions. `Evals job s r s'` means 'for some fuel'; more fuel never changes a result (`Lemmas/Fuel.lean`), so no theorem is about a bounded number of steps.
* Pointers and sharing are modelled in a heap where the property is about them (C07, C42: `Model/Alias.lean`, `Model/AliasTake.lean`).
* Goroutines and channels are a transition system over all interleavings (C51, C52: `Model/Channel.lean`).
* Specifications are in `Spec*.lean` and at the top of the `Props/*.lean` files; they do not mention the model's helpers. Property theorems `Cnn_…` are in `Verif/Props/*.lean`, apart from the model (`Verif/Model/*.lean`) and lemmas (`Verif/Lemmas/*.lean`). Beside the theorems are `example`s with concrete cases that meet the hypotheses.
* Where the code deviates from the property, the statement in properties.jsonl names the exception and a theorem proves the counterexample; C07 and C57 are false in general and only `_partial` theorems and counterexamples are proved.

## What is modelled, file by file

| Go code | Lean | remarks |
|---|---|---|
| apl/array.go (index arithmetic, Reshape, strands), apl/uniform.go | Model/Basic, Shape, Value, Unify | the Go array types are one type `Arr` with a tag `Kind` |
| apl/int.go, apl/bool.go | Model/Int, Scalar | |
| apl/tower.go, apl/numbers/register.go | Model/Tower, NumText | number classes of a tower are parameters with contracts; demo towers satisfy them |
| apl/numbers/{float,complex}.go text | Model/NumText | the decimal to binary conversion of Go's strconv is the parameter 'nearest number' |
| apl/numbers/time.go, times.go | Model/Time, TimeText, DurText | proleptic Gregorian calendar and `time.Duration` text from Go's library are modelled too |
| apl/big/*.go | Model/Big, BigText | integers and rationals with their pointers; big floats (bigfloat) are not modelled |
| apl/primitives/{rho,comma,take,reverse,transpose,iota,unique,grade,find,match,decode,domino,compare,boolean,elementary,index,selection,enclose,table,query,dict,format,array,axis}.go | Model/RavelAxis, Depth, Take, Reverse, Transpose, Catenate, Search, Grade, Match, Decode, Domino, Scalar, Tower, Index, Select, Lists, Table, TableOps, Dict, Format, Csv | |
| apl/operators/{reduce,dot,each,rank,power,commute,jot,at,stencil,assign,select,identity}.go | Model/ReduceTack, Depth, Reduce, Replicate, Dot, Ops, Rank, At, Stencil, Index, Select, Table, Alias | functions are arbitrary |
| apl/domain/*.go | Model/Domain | |
| apl/{eval,function,lambda,train,expr,var,operator,derived,register}.go | Model/Interp | |
| apl/parse.go | Model/Parse | the stack parser, token by token |
| apl/scan/*.go, apl/multiline.go, apl/stmt.go | Model/Scan, Parse | |
| apl/{list,object,table}.go | Model/Lists, Dict, Table, Csv | |
| apl/channel.go, primitives/channel.go, operators on channels | Model/Channel, Format | |
| apl/fmt.go, apl/tabwriter use, apl/string.go | Model/Format | layout of right aligned cells |
| apl/io/*.go, apl/a/commands.go | Model/Mount, VarFs, Commands, Package | the operating system's files are parameters |
| apl/xgo/*.go | Model/Xgo | Go values as a recursive type, reflection as functions on it |
| apl/image.go | Model/Image | colours and pixels; encoders are not modelled |
| apl/rpc/*.go | Model/Rpc | gob transport as 'zero fields are omitted' |
| apl/operators/axis.go, apl/primitives/axis.go | Model/AxisSpec | splitAxis, splitCatAxis, axis heads of ten functions |
| cmd/apl.go, cmd/testing.go | Model/Cmd | the lines of bufio.Scanner, the session, the comparison of outputs |
| cmd/iv.go, cmd/iv/main.go, cmd/testing.go | Model/IvCmd | the command iv and its test files |
| the machine put together | Model/Std | scanner + parser + evaluator + the primitives of C92 |

Not modelled: package http, gui (cmd/lui and others), package a's help and memory statistics, bigfloat arithmetic, random number generation itself (C59 holds for every outcome), unicode classes (parameters), goroutine scheduling outside of C51/C52, floating point rounding (numbers of a tower are abstract; C62, C24, C37 are about exact fields), memory limits, file systems of the operating system, the network. `apl/domain/compare.go` is commented out in the repository.

## How each property is proved

* **C01** Linear offset and index vector are inverse (proved; Props/Shape): list functions for NewIdxConverter/Index/Indexes; induction on the shape.
* **C02** Row-major stepping visits every element once, in order (proved; Props/Shape): IncArrayIndex as the right-to-left odometer; inc (indexes k) = indexes (k+1), then induction on steps.
* **C03** Reshape recycles the elements cyclically (proved; Props/Reshape): Reshape loops with the source cursor that wraps; invariant cursor = k mod n.
* **C04** Shape, ravel and reshape agree (proved; Props/Reshape): rho1/rho2/ravel on the value type; from C03.
* **C05** Take selects from the correct end and pads with fill (proved; Props/Take): operators.Take with its odometer loop; pointwise through C01/C02.
* **C06** Drop is the complement of take (proved; Props/Take): the conversion of drop to take on integers; pointwise; partition law for vectors.
* **C07** Structural functions do not modify their arguments (partial; Props/AliasTake): heap model; the property is false for L (counterexamples), _partial theorems give the exact conditions of preservation.
* **C08** Reverse mirrors one axis and is an involution (proved; Props/Reverse): reverse's loop; pointwise, involution by extensionality.
* **C09** Rotate shifts cyclically by any integer (proved; Props/Rotate): rotate's loop with the normalised count; pointwise with Int.emod.
* **C10** Monadic transpose reverses the axes (proved; Props/Transpose): transposeIndexes without L; pointwise.
* **C11** Dyadic transpose follows its axis map, including diagonals (proved; Props/Transpose): transposeIndexes with L: checks, result shape, flat index list; pointwise.
* **C12** Catenate joins along an axis (proved; Props/Catenate): catenate's loops; pointwise; vector corollary.
* **C13** Laminate adds a new axis of length two (proved; Props/Catenate): laminate's loop; pointwise.
* **C14** Replicate repeats, drops and fills (proved; Props/Replicate): commonReplExp and Replicate with the cell loop; vectors equal to a flatMap, arrays pointwise.
* **C15** Expand inserts fill and is undone by compress (proved; Props/Replicate): Expand's loop; equality with a recursive specification; compress of expand.
* **C16** Bracket indexing returns exactly the selected elements (proved; Props/Index): spec2ints, indexArray, index; pointwise; explicit reject conditions.
* **C17** Indexed assignment changes exactly the selected elements (proved; Props/Assign): assignValue: flat index list and writes in place; frame and get/put theorems.
* **C18** Selective assignment updates what the selection function would return (proved; Props/Select): the selection runs the function on the array of its own positions; naturality of each function gives the correspondence.
* **C19** Interval and index-of (proved; Props/Search, Props/SearchIndex): loops with counters; first-match characterisation.
* **C20** Membership and where (proved; Props/Search): as C19.
* **C21** Unique, union and without (proved; Props/Search): loops against list specifications.
* **C22** Grade returns a sorting permutation (proved; Props/Grade): the sort routine is any function with the contract of sort.Sort; Less is a strict weak order.
* **C23** Interval index brackets its argument (proved; Props/Grade): the search loop; count characterisation.
* **C24** Encode and decode are inverse (proved; Props/Decode): encode and decode loops over an exact field with floor; round trip, uniqueness of digits.
* **C25** Reduction is a right-to-left fold (proved; Props/Reduce): reduce loop for an arbitrary fallible f; fold.
* **C26** Scan gives the reductions of all prefixes (proved; Props/Reduce): scan loop; prefixes.
* **C27** N-wise reduction reduces each window (proved; Props/Nwise): applyNwise, both paths.
* **C28** Inner and outer product (proved; Props/Dot): inner/outer loops pointwise, with call order.
* **C29** Each applies f once per element, in order (proved; Props/Ops): calls in an arbitrary monad.
* **C30** Rank operator applies f to cells (proved; Props/Rank): the cell loop of rank and the joining of results.
* **C31** Power iterates (proved; Props/Ops): power loop with the iteration limit of the code.
* **C32** Commute, compose and trains combine as documented (proved; Props/Calls, Ops): trains by induction on the length; commute and compose also in the interpreter.
* **C33** Scalar functions conform and extend (proved; Props/Scalar, ScalarAxis): arrays.To and array2 loop.
* **C34** Mixed numeric types are brought to one type (proved; Props/Tower): tower with abstract classes and conversions; loops of arith1/arith2.
* **C35** Integer arithmetic is 64-bit two's complement; division is exact (proved; Props/Int): 64-bit arithmetic against integers.
* **C36** Comparison functions are mutually consistent (proved; Props/Tower): compare over abstract Equals/Less with the contracts of number types.
* **C37** Residue, gcd and lcm (proved; Props/Int): Int and exact rational numbers.
* **C38** Boolean connectives (proved; Props/Int): truth tables.
* **C39** Factorial and binomial (proved; Props/Int): tables of Gamma/Gamma2 against factorial and choose.
* **C40** Dictionaries behave as insertion-ordered maps (proved; Props/Dict): Dict = key list and map; refinement to histories of assignments.
* **C41** Nested lists: deep get and set (proved; Props/NList): recursive lists.
* **C42** Assignment copies (proved; Props/Alias, AliasMod): heap of slots with references; ownership invariant over all sequences of assignments.
* **C43** Function calls restore the environment (proved; Props/Interp): induction over the evaluation (fuel).
* **C44** Variables resolve to the innermost binding (proved; Props/Calls, Interp): chain of environments.
* **C45** Guards pick the first true condition (proved; Props/Lambda): guardList as executed, incl. tail calls.
* **C46** Evaluation order and long right scope (proved; Props/EvalOrder, Parse): stack parser proved against a grammar (SpecParse). An operator with an axis puts three items on the stack at once; this is shown to be the same as pushing them one after the other (Lemmas/ParseAxis).
* **C47** Statement separation (proved; Props/Parse, Program): nextStatement and program evaluation against a relation.
* **C48** String literals round-trip through the scanner (proved; Props/Scan): scanner against the grammar of literals.
* **C49** Scanner consumes the line completely (proved; Props/Scan): scanner against the division of a line (SpecScan).
* **C50** Line buffer accepts exactly complete blocks (proved; Props/Scan): line buffer as a state machine, all histories.
* **C51** Channel pipelines preserve order and lose nothing (proved; Props/Channel): transition system of stages; invariants and measures over all schedules.
* **C52** Reduction over a channel consumes it completely (proved; Props/Channel): as C51, with the reader loop.
* **C53** Primitive and operator dispatch uses the latest matching registration (proved; Props/Calls, EvalOrder): handler lists and dispatch.
* **C54** Domain combinators do not leak conversions (proved; Props/Domain): combinators and atomic domains as functions with a contract.
* **C55** Unification preserves values (proved; Props/Unify): Unify loops.
* **C56** Match is an equivalence on values (proved; Props/Match): match, tally and depth.
* **C57** Find marks the starts of occurrences (partial; Props/Find): find; false across row boundaries: counterexample, exact condition, vector case; the exact result for all arrays in terms of the ravel, with the condition for the panic (C57_ravel).
* **C58** At operator changes only the addressed items (proved; Props/At): at on index vectors and masks.
* **C59** Deal draws distinct values in range (proved; Props/Lists): permutation prefix for every random outcome.
* **C60** Cut splits a list without loss (proved; Props/Lists): cut loop.
* **C61** Split and join of strings (proved; Props/Lists): strings.Split/Join/Fields modelled on characters.
* **C62** Matrix divide solves the linear system (proved; Props/Domino, DominoLsq): LU with partial pivoting and Householder QR over an ordered field with square roots; exactness.
* **C63** Assignment to several names stores the elements in order (proved; Props/Calls): vector assignment in the interpreter.
* **C64** A dictionary of columns flips to a table and back (proved; Props/Table): flip of dictionaries and tables.
* **C65** Indexing a table selects exactly the named rows and columns (proved; Props/Table): table indexing by rows and columns.
* **C66** A table query aggregates every group of rows once (proved; Props/TableQuery): grouping, planning and aggregation with arbitrary functions.
* **C67** Elementary functions apply to the values of dictionaries and tables (proved; Props/TableOps): elementary functions on dictionaries/tables for any scalar function.
* **C68** Catenation of dictionaries and tables (proved; Props/TableOps): catenation of dictionaries and tables.
* **C69** A table update changes exactly the selected cells (proved; Props/TableAssign): assignTable; columns replaced functionally (the code updates columns one after the other, so a failure may leave earlier ones changed).
* **C70** Displaying an array and parsing the text gives the array back (proved; Props/Format): writer and reader of array text for all ranks.
* **C71** The text of an integer is its numeral and is read back as the same integer (proved; Props/Format): numerals; round trip through parser and scanner.
* **C72** The quoted text of a string is one string literal with the same value (proved; Props/Format): quoting against the literal grammar of C48.
* **C73** Reading arrays of rank k from a channel of strings sends exactly the cells, in order (proved; Props/FormatStream): ScanRankArray as a stream, sequential.
* **C74** The mount table: the file system mounted last under a prefix of the name serves it (proved; Props/Mount): mount table over all histories.
* **C75** Names in a mounted directory stay inside of it, and the names of a listing can be opened (proved; Props/Mount): path arithmetic of filepath.Join/Clean.
* **C76** Stencil: f is called once for every element with the neighbourhood of the element (proved; Props/Stencil): stencil loop with arbitrary f.
* **C77** Packages: loading is isolated, complete or not at all, and package variables never change (proved; Props/Package, PackageFile): machine with packages; invariant over all sessions.
* **C78** A file is evaluated block by block, in order, up to the first failure (proved; Props/PackageFile): EvalFile against a relation of blocks.
* **C79** Go values and functions are used from APL without change (proved; Props/Xgo): Go values as a recursive type.
* **C80** Images show the integers they are made of (proved; Props/Image): pixels and colours.
* **C81** A remote call is the call in the interpreter of the server (proved; Props/Rpc): server loop and connections; refinement to local calls.
* **C82** Arithmetic with times and durations is exact (proved; Props/Time): nanosecond arithmetic with saturation.
* **C83** Rounding a time gives the begin of its period (proved; Props/TimeRound): loops of roundTime; calendar facts for all years.
* **C84** Big numbers compute exactly (proved; Props/Big): big integers/rationals as exact numbers with in-place changes where the code has them.
* **C85** Variables as files (proved; Props/VarFs): varfs over the interpreter state.
* **C86** Commands (proved; Props/Commands): token rewriting; time command through the program semantics.
* **C87** Text of tables and CSV (proved; Props/Csv): CSV writer and a grammar of RFC 4180; table writer.
* **C88** Big numbers are displayed and read exactly (proved; Props/BigText): numerals of integers and fractions.
* **C89** Number literals of the default tower denote the nearest number (proved; Props/NumText): ParseFloat/ParseComplex over abstract rounding.
* **C90** Time stamps are written and read as calendar dates (proved; Props/TimeText): Go's time layouts as formatting and parsing items.
* **C91** Durations are written and read exactly (proved; Props/DurText): Go's Duration.String and ParseDuration.
* **C92** Programs do what they mean, from their text to the text of their results (proved; Props/Calc): a language (integer arrays, 17 primitive functions, reduction, scan, commute, each, lambdas) with its meaning (SpecCalc) is compiled to text; scanner, parser, evaluator and primitives are proved to compute the meaning.
* **C93** Ravel with axes, new axes, tables, ⍪ and enlist (proved; Props/RavelAxis): ravelWithAxis, table, catenateFirst and enlist on the value type; results given element by element.
* **C94** Reductions ⊣/ ⊢/, of tables and dictionaries, and the identity elements (proved; Props/ReduceTack): the special cases of reduct before the general fold; identityItem as a table of values, with ⌊ and ⌈ stated as the code has them.
* **C95** Indexes at depth into dictionaries (proved; Props/Depth): a tree of dictionaries, lists, arrays; objDepthSelection writes negative positions for keys, assignObjectDepth reads them back; induction on the path.
* **C96** JSON text of nested values (proved; SpecJson, Model/Json, Props/Json): an executable reader for RFC 8259 is the specification; induction over the nesting shows that the reader gives the value back for the good values, and that no prefix of the text of any other value is read.
* **C97** The text of a nested list typed in (proved; Model/ListText, Props/ListText): the text is cut into tokens (grammar of the scanner, C49), the tokens are a statement of the grammar (C46), and its evaluation builds the value; induction over the nesting. Assumed of the interpreter (`BuildsLists`, met by the example): numbers and strings are read as in C71/C72, and strands and lists are built of their elements.
* **C98** Complex arithmetic (proved in exact arithmetic; Model/Complex, Props/Complex): the big.Floats are cells of a heap that the methods overwrite; the methods are executed symbolically, giving value, freshness of the result and unchanged arguments for any ordered field with a floor; the square root is assumed exact (`IsSqrt`, met by the real numbers). Rounding, precision, infinities inside the parts and the transcendental functions are not modelled. Findings: big `×c` overwrites `c` (`C98_direction`, `big/complex.go:134` calls `c.abs()` on the receiver, not on the copy); the big floor goes through float64 (`C98_floor_rounds`).
* **C99** Text read from a channel (proved; Model/Reader, Props/Reader): `ChannelReader.Read` and `RuneScanner` as state machines; invariant: bytes delivered + buffer + texts to come = the whole text, for every sequence of buffer sizes. `C99_stream` connects the scanner with the text of C73. Findings: the field `first` is never set, the text begins with a newline (`C99_leading_newline`); an empty first string is taken for the end (`C99_empty_first`).
* **C100** Selection by a function (proved; Model/FuncIndex, Props/FuncIndex): the loop of `funcArrayIndex` for an effectful function; equal to a `mapM` over all index vectors; composed with the assignment (C17_flat).
* **C101** The command apl (proved; Model/Cmd, Props/Cmd): the lines of `bufio.Scanner` with its limit of 64 KiB, the loop of `Apl` over them on top of `evalLine` (C78), the file mode on top of `evalFile`; sessions are specified by the relation `ReplRun`. Values printed and messages are listed apart; a panic of the parser in a file is counted as a failure.
* **C102** The test runner (proved; Model/Cmd, Props/Cmd): the comparison loop on bytes, by induction over both texts.
* **C103** Programs and environment (proved; Model/Exec, Props/Exec): the command that `exec` starts, on top of the mount table (C74) and paths (C75), with the storage of the argument; the environment as a map. The process itself is not modelled.
* **C104** Axis specifications (proved; Model/AxisSpec, Props/AxisSpec): `splitAxis`, `splitCatAxis` with the index origin and the heads of the functions that take an axis, on top of their models (C05, C06, C08, C09, C12–C15, C25–C27, C93); the numeric types are a function `ToIndex` (and the floor). Channels, lists, tables and dictionaries as right argument and the arithmetic functions with axis are not in this file.
* **C105** The stream processor iv (proved; Model/IvCmd, Props/IvCmd): `Iv`, `main` and the test runner on top of `evalLine` (C78), sessions (C101) and the comparison of outputs (C102). The function that reads standard input is part of the environment; the lines it reads are those of C51.

## Parameters and hypotheses

Theorems quantify over what the model leaves open: functions given to operators, number types of the tower (`Tower`, `ExactTower`, `Conv`: conversions keep values), the sort routine (`sort.Sort` contract), the random generator, unicode classes, the text of floats (`TextEnv.Ok`: the text of a number can be read back — demonstrated by `TextDemo.env_ok`), Go's rounding of decimals (`nearest`), the exact product used by `time.ParseDuration` (`ExactMul`), the file system. For each such hypothesis a concrete instance is proved beside the theorems.

## Trusted base

* The Lean 4.33.0 kernel; the axioms of each theorem are listed in AXIOMS.md (generated with `#print axioms`), they are among `propext`, `Classical.choice`, `Quot.sound`. No other axioms, no compiled evaluation.
* The reading of the Go code recorded in each definition's citation, with the simplifications named there; the Go compiler and run time, and the parts of Go's library that are modelled (strconv, time, sort contract, filepath, encoding/csv, strings).
* The English of properties.jsonl against the Lean statements.
* seeded/LOG.jsonl records edits of the model (wrong programs) and which theorems failed for them.

## Findings in the code

Deviations found while modelling; those with a theorem name are proved of the model.

* Structure functions: `M,0` and `M,V` without an axis add a row (C12_right_adds_row); `⌽⍳0` is rejected (C08_empty_rejected); a scalar rotation count for a matrix is rejected though documented (C09_single_count_rejected); `⍉⍳0` panics (C10_empty_panics); a laminate axis above the rank panics (C13_axis_bound_panics); `3⍴0⍴"a"` panics and `(⍳0)⍴R` is the empty vector (C03_empty_source_counterexamples); negative axis lengths are accepted by ⍴ (C03_negative_shape_accepted); a catenate with an empty side returns the other side without a check (C12_empty).
* Replicate and expand: empty arguments and axes out of range panic (C14_empty_panics); expand has no length check (C15_surplus_ignored, C15_shortage_panics).
* Reductions: `+/0⍴5` is an array of rank 0 without elements (C25_zero_length_deviation); scan of a vector without elements panics (C26_zero_length_panics); n-wise × is wrong on overflow and fails with zeros (C27_times_counterexample, C27_zero).
* Arguments changed: drop writes its counts into L (C07_drop_overwrites, C07_repeated), take with few counts changes the shape of L (C07_short_left), ⍉ at ⎕IO 0 increments L (C07_transpose_increments), `⍵[1]←…` in a lambda changes the caller's variable (C42_lambda_argument), a modifier that returns foreign storage can leave two variables sharing it (C42_failed_modifier), `X[1]{X}←0` builds a value that contains itself (C42_self_containing), `3*r` may negate r (C84_power_changes_argument).
* Rank: f⍤k fails for frames with two or more axes (C30_frame_rank2_fails) and never calls f if k is the rank (C30_full_rank_not_applied).
* Tower: after a conversion of Bool to Int `num` is nil so `(1=1)÷1=2` panics; the result of Uptype is used although it may have failed; NaN > x and x > NaN both hold (C36_nan). identityItem has ⌊ and ⌈ swapped.
* Search: L∪R with an empty side keeps duplicates (C21_union_empty); grading three number types fails (C22_tower_three_types); the check of L in L⍸R relies on an unstable sort (C23_ties).
* Find and at: matches across rows and index panics (C57_across_rows, C57_panic, C57_empty_left); order and duplicates of an index vector are ignored by @ (C58_order_ignored, C58_duplicate, C58_empty_panic).
* Indexing: `A[⍳0]` selects everything (C16_empty); fill in nested selections writes element 0 (C18_nested_fill_counterexample). Lists: index ¯1 at ⎕IO 1 is the last but one (C41_negative_origin1).
* Dictionaries and tables: duplicate keys (C40_duplicate_keys, C40_duplicate_keys_assign); T[I] with an empty I (C65_no_rows); results with the same name (C66_one_name); tables with different numbers of rows are combined (C67_different_rows, C68_different_rows); table updates are not atomic; column formats leak (CsvDemo.C87_format_leak, C87_user_format_ignored, C87_blank_line).
* `1⍪2` is an error, `,[⍳0]⍬` is a vector with one zero, integer arrays without elements lose their shape (Props/RavelAxis); `⊣⌿` works on the last axis (Props/ReduceTack); `D["a";I]←5` with indexes I that select nothing replaces the whole array at "a" (C95_empty_selection).
* At PP ¯2 the texts of negative integers (`¯1`), truth values (`1b`), strings with the escapes `\a \v \x \U`, and dictionaries with keys that are no strings are no JSON (C96_json); the empty array has no text at all, `(⍳0;)` and the empty list have the same text (C96_empty).
* Matrix divide: errors of the solver are ignored (C62_solver_error_ignored), one element panics (C62_one_panics).
* Domains: C54_not_leaks, C54_rejected_converted, C54_empty_ignores_child, C54_bool_empty.
* Lambdas: the condition of a guarded tail call is never evaluated (C45_tail_guard_ignored); variables and ⍺ of the previous round stay in a tail call; scope is dynamic.
* Parser: C46_three_operators, C46_operator_then_operator, C46_list_with_index, C46_double_index, C46_leading_bracket, C46_train_flattened, C46_assign_train, C46_axis_then_operator (`-+/[1]×/A` is rejected), C47_diamond_in_parentheses, C47_empty_statement, C50_diamond_before_brace, C50_trailing_empty_line.
* Channels: C51_two_stages_leak, C51_left_leak, C51_reshape_crash; a first empty string ends <⍤k at once (C73_first_empty).
* Text: C70_no_elements, C71_negative, C89_two_dots, C89_infinity, C89_json_minus, C90_duration_as_date, C91_micro.
* Files and packages: C75_escape, C75_listing_without_slash, C77_origin_leaks, C77_package_function_scope, C85_shadows, C86_time_empty, C86_time_block; EvalFile ignores the error of bufio.Scanner (lines above 64 KiB); cmd.Apl runs only its first file.
* Stencil: C76_offset_not_padding, C76_narrow_matrix, C76_empty. Go functions: C79_left_crashes, C79_mismatch_crashes, C79_struct_result, C79_uint_wraps, C79_lower_key. Images: C80_transparent, C80_at. Remote calls: C81_stale_left, C81_stale_function, C81_crash. Times: C82_saturates, C82_y1k, C82_ceil, C83_week_1000. Big numbers: C84_zero_division, C84_native_division, C84_floor.
* `<R` without an axis sends two copies with the default index origin: the origin is added to the default 1 (`primitives/channel.go:27-31`, `C51_source`).
* `ChannelReader` puts a newline before the first text: `NewChannelReader` does not set `first` (`C99_leading_newline`).
* `A[f]←v`: an empty result of `f` does not advance the index vector (`C100_empty_stuck`); the example in the comment of `funcArrayIndex` selects nothing (`C100_empty_example`); a result other than 0 or 1 is no error (the test uses the wrong variable; C100_calls).
* The command apl: `apl a.apl b.apl` evaluates only a.apl: `return a.EvalFile` is in the loop (cmd/apl.go:30, C101_first_file, C101_second_file_ignored); a line with 65536 bytes or more ends a session or file without an error, as `scanner.Err()` is never asked (C101_long_line, C101_truncated_file); a panic of the parser is not recovered, typing `-A[1][2]` ends the interpreter (C101_crash, C101_crash_example).
* The test runner reports the next line if a newline was expected (C102_report) and does not compare the output of a program that fails (C102_test).
* `io→x A` with a variable `A` that holds strings writes the relocated path into `A` (apl/io/read.go:73, C103_second_call).
* `×c` of a big complex number overwrites `c` (`big/complex.go:134`, `C98_direction`).
* The floor of big floats and complex numbers goes through float64 (`C98_floor_rounds`).
* Axis specifications: numbers below the index origin count from the end (`+/[0]A` with `⎕IO` 1, C104_below_origin); the axis of a rotated vector is not checked (C104_rotate_vector); `(⍳0)↑[1]A` returns an axis value (primitives/take.go:77, C104_take_none); brackets with an array without elements that is neither `⍳0` nor integers panic (C104_elementless).
