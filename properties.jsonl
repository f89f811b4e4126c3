{"id": "C01", "title": "Linear offset and index vector are inverse", "statement": "For an array shape, converting a linear offset to an index vector and back gives the offset, the index vector is within the shape, and converting an in-range index vector to an offset and back gives the index vector; the offset is below the number of elements.", "quantifier": "every non-empty shape (any rank, any axis lengths), every offset below the element count and every in-range index vector", "why_tests_cant": "the shapes and offsets form an unbounded domain; a test fixes a few shapes", "anchors": ["apl/array.go: NewIdxConverter, IdxConverter.Index, IdxConverter.Indexes"]}
{"id": "C02", "title": "Row-major stepping visits every element once, in order", "statement": "Starting at the all-zero index vector and stepping k times gives the index vector of linear offset k; after as many steps as there are elements the index vector is back at all zeros.", "quantifier": "every non-empty shape and every step count", "why_tests_cant": "unbounded rank, axis lengths and number of steps", "anchors": ["apl/array.go: IncArrayIndex, IdxConverter.Indexes"]}
{"id": "C03", "title": "Reshape recycles the elements cyclically", "statement": "S⍴A has shape S, and its k-th element in row-major order is element (k mod n) of A's n elements in row-major order; a scalar is repeated; reshaping the empty array ⍳0 gives zeros. Exceptions: an integer array without elements other than ⍳0 gives ⍳0 and a string array without elements crashes, reshaping to no axes gives ⍳0, and two negative axis lengths are accepted.", "quantifier": "every source with at least one element (and ⍳0), every target shape with at least one axis, every position", "why_tests_cant": "unbounded shapes; the wrap-around of the source cursor must be right at every position", "anchors": ["apl/primitives/rho.go: rho2", "apl/array.go: MixedArray.Reshape, IntArray.Reshape, EmptyArray.Reshape"]}
{"id": "C04", "title": "Shape, ravel and reshape agree", "statement": "⍴S⍴A is S for S with at least one axis and A with at least one element; ,A is the vector of A's elements in row-major order; (⍴A)⍴,A is A for an array with elements; ⍴ of a scalar is empty.", "quantifier": "every array with at least one element, every non-empty shape", "why_tests_cant": "universally quantified algebraic laws over arrays of any rank", "anchors": ["apl/primitives/rho.go: rho1, rho2", "apl/primitives/comma.go: ravel"]}
{"id": "C05", "title": "Take selects from the correct end and pads with fill", "statement": "N↑A has axis lengths |N|; along each axis a non-negative n takes the leading n, a negative n the trailing |n| positions, and every position outside A is filled with zero while every position inside is the corresponding element of A.", "quantifier": "every array, every vector N of integers (any sign, shorter than, equal to or longer than the axis) and every result position", "why_tests_cant": "overtake in several axes and mixed signs multiply to an unbounded case space", "anchors": ["apl/operators/rank.go: Take", "apl/primitives/take.go: takedrop"]}
{"id": "C06", "title": "Drop is the complement of take", "statement": "N↓A removes the leading n (or trailing |n|) positions of each axis, leaving max(0, len-|n|) positions holding the elements of A that were there; for a vector and 0≤n≤len, (n↑V),(n↓V) is V.", "quantifier": "every array, every integer vector N", "why_tests_cant": "unbounded lengths and counts including counts beyond the length", "anchors": ["apl/primitives/take.go: takedrop, drop", "apl/operators/rank.go: Take"]}
{"id": "C07", "title": "Structural functions do not modify their arguments", "statement": "Evaluating L↑R, L↓R or L⍉R leaves the values held by variables used as L and R, and by all other variables, unchanged. (False for L: L↓R replaces the counts in L, L with fewer counts than axes gets a wrong shape, and L⍉R with index origin 0 increments L.)", "quantifier": "every L and R, every number of repeated evaluations of the same expression", "why_tests_cant": "aliasing effects are only visible in later uses of the same value, over arbitrary histories", "anchors": ["apl/primitives/take.go: takedrop", "apl/primitives/transpose.go: transposeIndexes", "apl/var.go: numVar.Eval"]}
{"id": "C08", "title": "Reverse mirrors one axis and is an involution", "statement": "⌽[k]A has A's shape; the element at index vector i is A's element with i's k-th component replaced by len-1-i_k; reversing twice along the same axis gives A; an axis outside the rank is rejected. Exception: ⌽⍳0 is rejected.", "quantifier": "every array, axis and index vector", "why_tests_cant": "unbounded shapes", "anchors": ["apl/primitives/reverse.go: reverse, revLast, revFirst"]}
{"id": "C09", "title": "Rotate shifts cyclically by any integer", "statement": "n⌽V for a vector holds at i the element of V at (i+n) mod len, also for negative n and |n|>len. For arrays of two or more axes, an array of counts with A's shape without axis k is applied per vector along the axis: L⌽[k]A holds at index vector i the element of A at i with component k replaced by (i_k+n) mod len, n being the count for i. Rotations add: m⌽n⌽A is (m+n)⌽A and ¯n⌽n⌽A is A. Counts of another shape are rejected; so is a single count for a matrix, although documented.", "quantifier": "every array, axis, and every integer or conforming integer array of counts", "why_tests_cant": "modular arithmetic over all integers and all shapes", "anchors": ["apl/primitives/reverse.go: rotate, rotLast, rotFirst"]}
{"id": "C10", "title": "Monadic transpose reverses the axes", "statement": "⍉A has the reversed shape of A, (⍉A)[i] is A[reverse i], and ⍉⍉A is A, at both index origins. Exception: ⍉⍳0 crashes.", "quantifier": "every array with at least one axis and every index vector", "why_tests_cant": "unbounded rank and shape", "anchors": ["apl/primitives/transpose.go: transpose, transposeIndexes"]}
{"id": "C11", "title": "Dyadic transpose follows its axis map, including diagonals", "statement": "For a valid axis vector L, the result of L⍉A at index j is A at the index whose component a is j[L[a]]; result axis lengths are the minimum over the axes mapped to it; a vector L that is not of A's rank or does not cover 0..max(L) is rejected.", "quantifier": "every array, every vector L of integers and every result index", "why_tests_cant": "all permutations and all diagonal maps of any rank", "anchors": ["apl/primitives/transpose.go: transposeIndexes, transpose"]}
{"id": "C12", "title": "Catenate joins along an axis", "statement": "L,[k]R on arrays of equal rank whose other axis lengths agree has along axis k the sum of the lengths; the elements at axis positions below L's length are L's and the rest are R's; a scalar, or an array of one axis less, contributes one cell; disagreement in another axis, ranks that differ by more than one and axes out of range are rejected; a side without elements is dropped. For vectors, catenation is associative and concatenates the element sequences. Without an axis the last axis of R is used, and the first axis if R is a scalar (so M,0 adds a row to a matrix: a deviation).", "quantifier": "every pair of arrays and every axis", "why_tests_cant": "unbounded shapes; interleaving of two row-major arrays", "anchors": ["apl/primitives/comma.go: catenate"]}
{"id": "C13", "title": "Laminate adds a new axis of length two", "statement": "L,[k+.5]R on arrays of the same shape (or a scalar and an array) inserts a new axis of length 2 whose first cell is L and whose second is R.", "quantifier": "every pair of arrays of equal shape, every insertion position", "why_tests_cant": "unbounded rank", "anchors": ["apl/primitives/comma.go: laminate"]}
{"id": "C14", "title": "Replicate repeats, drops and fills", "statement": "For counts L and a vector V of the same length, L/V is the concatenation, in order, of |L_i| copies of V_i for L_i≥0 and of |L_i| zeros for L_i<0; its length is the sum of |L_i|; mismatched lengths are rejected; on an array it acts on the chosen axis.", "quantifier": "every count vector and every array", "why_tests_cant": "arbitrary counts and shapes", "anchors": ["apl/operators/reduce.go: Replicate, compress, commonReplExp"]}
{"id": "C15", "title": "Expand inserts fill and is undone by compress", "statement": "L\\V places consecutive elements of V at the positions where L is positive (repeated), and zeros where it is not; for a boolean mask M with as many ones as V has elements, M/M\\V is V.", "quantifier": "every mask and vector", "why_tests_cant": "arbitrary lengths and masks", "anchors": ["apl/operators/reduce.go: Expand, Replicate"]}
{"id": "C16", "title": "Bracket indexing returns exactly the selected elements", "statement": "A[I;J;…] has at each position the element of A at the origin-adjusted index combination (an index array is used ravelled); an elided axis, and one indexed by ⍳0, selects all positions in order; axes indexed by a single position are removed; an index outside its axis or a wrong number of axes is rejected, so no element outside A is ever read.", "quantifier": "every array, every index specification, both index origins", "why_tests_cant": "unbounded shapes and index lists; bounds must hold for each", "anchors": ["apl/primitives/index.go: index, indexArray, spec2ints"]}
{"id": "C17", "title": "Indexed assignment changes exactly the selected elements", "statement": "After A[I]←R succeeds, each selected element holds the corresponding element of R (R extended when scalar), every other element and the shape are unchanged, and with a modifier f the new element is (old f R).", "quantifier": "every array, index specification and value; repeated positions keep the last write", "why_tests_cant": "frame property over all unselected positions of arrays of any shape", "anchors": ["apl/operators/assign.go: assignValue", "apl/primitives/index.go: indexSelection"]}
{"id": "C18", "title": "Selective assignment updates what the selection function would return", "statement": "For a structural function f (take, drop, reverse, rotate, transpose, reshape, ravel, replicate, expand), (f A)←R writes R's elements in order to the positions of A whose elements f A shows and changes nothing else; afterwards f A is R where every position is shown once and no fill occurs. Fill positions of / and \\ and of functions with an axis are skipped, an overtake without axis is rejected. (Only the function next to the variable selects: fill of a function left of it addresses the first element.)", "quantifier": "every array, every supported selection function, every value", "why_tests_cant": "the position map must coincide with the function's own data movement for every shape", "anchors": ["apl/primitives/selection.go: selection", "apl/primitives/take.go: takeDropSelection", "apl/operators/assign.go: assignValue"]}
{"id": "C19", "title": "Interval and index-of", "statement": "⍳n is the n consecutive integers from ⎕IO; L⍳R gives for each element of R the origin-based position of its first match in L, or length+origin if absent; V[V⍳x] is x when x occurs in V.", "quantifier": "every n, every pair of arrays, both origins", "why_tests_cant": "unbounded sequences, first-match minimality", "anchors": ["apl/primitives/iota.go: interval, indexof, isEqual"]}
{"id": "C20", "title": "Membership and where", "statement": "L∊R is 1 exactly at positions of L whose element occurs somewhere in R; ⍸B lists in increasing order exactly the (origin-based) positions of the ones of a boolean vector; non-boolean input is rejected.", "quantifier": "every pair of arrays; every boolean vector", "why_tests_cant": "unbounded", "anchors": ["apl/primitives/iota.go: membership, where"]}
{"id": "C21", "title": "Unique, union and without", "statement": "∪V keeps the first occurrence of each distinct element in order, has no duplicates, and is idempotent; L∪R is the distinct elements of L followed by the distinct elements of those of R not in L (if one side is the empty array, the other side is returned unchanged); L~R keeps in order exactly the elements of L not in R.", "quantifier": "every vector(s)", "why_tests_cant": "unbounded sequences and multiplicities", "anchors": ["apl/primitives/unique.go: unique, union", "apl/primitives/boolean.go: without"]}
{"id": "C22", "title": "Grade returns a sorting permutation", "statement": "⍋A and ⍒A are permutations of the positions along the first axis (shifted by ⎕IO), and taking A's major cells in that order gives a non-decreasing (non-increasing) sequence in the ravel-lexicographic order, whatever order the sort routine visits comparisons in.", "quantifier": "every array of comparable elements; every sorting algorithm meeting the library contract", "why_tests_cant": "the sort algorithm is unspecified: the claim holds for all implementations satisfying the contract and all inputs", "anchors": ["apl/primitives/grade.go: grade, gradeSetup, sortIndexes.Less, sortIndexes.Swap"]}
{"id": "C23", "title": "Interval index brackets its argument", "statement": "For a strictly increasing left vector L, L⍸R gives for (the first element of) each major cell x of R the number of elements of L that are ≤ x, minus one, plus ⎕IO, i.e. the position of the interval containing x; an unsorted L is rejected; a sorted L with repeated elements gives the same result or is rejected (the check relies on an unstable sort).", "quantifier": "every sorted vector and every value", "why_tests_cant": "unbounded", "anchors": ["apl/primitives/iota.go: intervalindex"]}
{"id": "C24", "title": "Encode and decode are inverse", "statement": "In exact arithmetic: for positive radices L and 0≤n<×/L, every digit of L⊤n lies in [0,radix) and L⊥L⊤n is n (for other n the digits represent n modulo ×/L); a leading radix 0 receives the whole quotient; valid digits are unique (L⊤L⊥D is D); L⊥D evaluates the mixed radix polynomial (Horner) of every pair of a last-axis vector of L and a first-axis vector of D; L⊤R on arrays encodes every element of R by every first-axis column of L.", "quantifier": "every radix vector and every integer", "why_tests_cant": "number-theoretic round trip over all radices and lengths", "anchors": ["apl/primitives/decode.go: encode, encodeVecScalar, decode"]}
{"id": "C25", "title": "Reduction is a right-to-left fold", "statement": "f/V is V1 f (V2 f (… f Vn)) for any dyadic f; the reduction of a one-element vector is the element without calling f; an error of f is propagated; along an axis each vector is reduced independently; the reduction of ⍳0 is the identity item of f or an error. Exception: an array with a zero-length axis other than ⍳0 (such as 0⍴5) gives an array without elements instead of the identity item.", "quantifier": "every function f (any results and failures), every vector, every array and axis", "why_tests_cant": "f is an arbitrary function; length unbounded", "anchors": ["apl/operators/reduce.go: reduct, reduce, identityItem"]}
{"id": "C26", "title": "Scan gives the reductions of all prefixes", "statement": "The k-th item of f\\V is f/k↑V (right-to-left fold of the prefix), and the result has V's shape; scalars and ⍳0 are returned unchanged. Exception: a zero-length vector other than ⍳0 crashes.", "quantifier": "every f, every vector, array and axis with at least one element along the axis", "why_tests_cant": "unbounded length, arbitrary f", "anchors": ["apl/operators/reduce.go: scanfunc, scan"]}
{"id": "C27", "title": "N-wise reduction reduces each window", "statement": "n f/V yields len-n+1 items, the i-th being the reduction of the window of n items starting at i (of the reversed window for negative n). The running-window shortcut taken for + and × with n>3 gives the same values as reducing each window for + on integers (also with wrap-around), and for × on integers when no item is 0 and the window products fit into 64 bits (outside of that it differs: known defect).", "quantifier": "every f, n and vector", "why_tests_cant": "the shortcut must agree with the definition for every window length and vector", "anchors": ["apl/operators/reduce.go: nwise, applyNwise"]}
{"id": "C28", "title": "Inner and outer product", "statement": "L∘.f R has shape (⍴L),⍴R with element L[i] f R[j] at (i,j), f being called once per pair in row-major order; L f.g R has shape (¯1↓⍴L),1↓⍴R with element f/L[i;] g R[;j], evaluated from the last inner item to the first; the inner lengths must agree, or one argument is a scalar and is extended to a vector. (An inner length of 0 fails instead of giving the identity.)", "quantifier": "every pair of arrays, any f and g", "why_tests_cant": "arbitrary ranks, shapes, functions", "anchors": ["apl/operators/dot.go: inner, outer"]}
{"id": "C29", "title": "Each applies f once per element, in order", "statement": "f¨A calls f once on every element in row-major order and returns the results in the shape of A; L f¨R requires equal shapes or a scalar side, which is extended; the first failing application aborts and no later element is touched; without elements f is not called and the result is empty. The same holds for lists, except that a non-list on the left of a list is rejected.", "quantifier": "every f (with effects), every array", "why_tests_cant": "call sequence over arbitrary arrays", "anchors": ["apl/operators/each.go: each1, each2"]}
{"id": "C30", "title": "Rank operator applies f to cells", "statement": "f⍤k A calls f on the k-cells of A in row-major order of the frame and assembles the results under the frame, padding unequal results at the end and repeating scalars; for scalar results the shape is the frame; L f⍤k R pairs corresponding cells, or repeats a whole argument. This holds when k is 0 or the frame has one axis (or few cells); with k≥1 and a frame of two or more axes the code rejects cells beyond the length of one axis, and with k equal to the rank f is never called.", "quantifier": "every f, k and A", "why_tests_cant": "unbounded rank and shapes", "anchors": ["apl/operators/rank.go: rank"]}
{"id": "C31", "title": "Power iterates", "statement": "f⍣n R applies f exactly n times in succession; f⍣g iterates until g of the new and previous value is 1 and returns that value, or reports an error after 1001 rounds.", "quantifier": "every f, g, n and R", "why_tests_cant": "arbitrary functions and iteration counts", "anchors": ["apl/operators/power.go: power"]}
{"id": "C32", "title": "Commute, compose and trains combine as documented", "statement": "L f⍨R is R f L and f⍨R is R f R; L f∘g R is L f (g R); (f g h) is a fork, (g h) an atop, longer trains associate to the right; each component is applied to exactly the documented arguments.", "quantifier": "every function and argument, trains of every length", "why_tests_cant": "arbitrary functions; train length unbounded", "anchors": ["apl/operators/commute.go: commute", "apl/operators/jot.go: compose", "apl/train.go: train.Call, atop.Call, fork.Call"]}
{"id": "C33", "title": "Scalar functions conform and extend", "statement": "A dyadic scalar function on two arrays requires equal shapes unless one side has a single element, which is extended; the k-th result element is f applied to the k-th elements; otherwise the call is rejected; the result has the shape of the non-extended side.", "quantifier": "every pair of values and every scalar function", "why_tests_cant": "unbounded shapes", "anchors": ["apl/primitives/array.go: arrays.To, array1, array2, arrayAxis"]}
{"id": "C34", "title": "Mixed numeric types are brought to one type", "statement": "Before a dyadic arithmetic function is evaluated both numbers are converted, by upward conversions of the tower only, to the same class, never below the class of either; numbers of equal type that the function handles are not converted; the conversion of both dyadic and monadic functions terminates for every tower whose top class cannot be converted further. A tower is accepted by SetTower exactly if the classes of its number types are 0, 1, … without gap and repetition, for every (unspecified) order of map iteration.", "quantifier": "every tower and pair of numbers", "why_tests_cant": "any user-defined tower", "anchors": ["apl/tower.go: SetTower, Tower.SameType, Tower.ToNumeric"]}
{"id": "C35", "title": "Integer arithmetic is 64-bit two's complement; division is exact", "statement": "Integer + - × are the mathematical results modulo 2^64 (exact when in range); integer ÷ succeeds only when it divides exactly and the quotient times the divisor is the dividend, with the one exception ¯9223372036854775808÷¯1, which gives ¯9223372036854775808; otherwise evaluation moves to the next numeric type.", "quantifier": "all pairs of 64-bit integers", "why_tests_cant": "2^128 pairs", "anchors": ["apl/int.go: Int.Add2, Int.Sub2, Int.Mul2, Int.Div2", "apl/primitives/elementary.go: arith2"]}
{"id": "C36", "title": "Comparison functions are mutually consistent", "statement": "For any two numbers of an exact tower (conversions keep the value, the Equals and Less of each number type decide equality and order of values) and for any two strings, exactly one of <,=,> holds; ≤ is not >, ≥ is not <, ≠ is not =; L<R equals R>L, also when L and R have different number types. (Float NaN is not comparable: > then holds both ways.)", "quantifier": "every pair of comparable scalars", "why_tests_cant": "all pairs", "anchors": ["apl/primitives/compare.go: compare, equalless, equals, less"]}
{"id": "C37", "title": "Residue, gcd and lcm", "statement": "L|R for integers, computed exactly, is congruent to R modulo L and lies in [0,L) for L>0 or (L,0] for L<0, and 0|R is R (the Int type itself only answers if L is 0 or divides R, otherwise the next number type computes it, here with exact rationals); for non-zero integers L∨R and L∧R are gcd and lcm, with gcd×lcm equal to the absolute product as long as it fits 64 bits, 0∨n is n and 0∧n is 0; on booleans they are logical or and and.", "quantifier": "all integers within range", "why_tests_cant": "number-theoretic facts over all integers", "anchors": ["apl/primitives/elementary.go: abs2, gcd, lcm", "apl/primitives/boolean.go: logical"]}
{"id": "C38", "title": "Boolean connectives", "statement": "∧ ∨ ⍲ ⍱ ~ on booleans are the truth tables; ⍲ and ⍱ are the negations of ∧ and ∨; De Morgan's laws hold element by element.", "quantifier": "every conforming pair of boolean arrays", "why_tests_cant": "arrays of any shape", "anchors": ["apl/primitives/boolean.go: logical, logicalNot"]}
{"id": "C39", "title": "Factorial and binomial", "statement": "!n is n! for 0≤n≤20 and moves to the next type otherwise; for 0≤k≤n within the table range k!n is the binomial coefficient, 0 when k>n≥0, and satisfies the sign rules for negative arguments, moving to the next type beyond the table there too.", "quantifier": "all integers", "why_tests_cant": "unbounded range with case table", "anchors": ["apl/int.go: Int.Gamma, Int.Gamma2"]}
{"id": "C40", "title": "Dictionaries behave as insertion-ordered maps", "statement": "Starting from an empty dictionary or L#R with distinct keys, after any sequence of assignments D[k]←v or D[k1 k2 …]←R, looking up a key returns the last value assigned to it (or is rejected), and the key list contains each assigned key once in order of first assignment; D[k]f←v assigns (old f v). (A dictionary made by L#R with repeated keys keeps them twice, and a later new key then overwrites another one.) #D is the vector of the assigned keys in this order.", "quantifier": "every sequence of assignments and lookups", "why_tests_cant": "all histories", "anchors": ["apl/object.go: Dict.Set, Dict.At, Dict.Keys, Dict.Copy"]}
{"id": "C41", "title": "Nested lists: deep get and set", "statement": "Setting an item at a path of a nested list makes getting it at that path return the value, leaves every path not through it or towards it unchanged, and keeps all lengths; an index that is negative after the shift by ⎕IO counts from the end; a path that leaves the structure is rejected; a modifier is applied to the old item.", "quantifier": "every nested list and path", "why_tests_cant": "unbounded depth and width", "anchors": ["apl/list.go: List.GetDeep, List.SetDeep, List.getset, List.Depth"]}
{"id": "C42", "title": "Assignment copies", "statement": "After X←Y the variables X and Y hold the same value in separate storage: any later sequence of assignments X←R, X f←R, X[I]←R, X[I]f←R (successful or failing half-way, with array, list and dictionary values of any nesting) to variables other than X leaves the value of X unchanged, and vice versa. Exceptions: a modifying function f that returns the storage of another variable in an indexed assignment that fails half-way, and the arguments ⍺ and ⍵ of a lambda function, which are bound without a copy.", "quantifier": "every sequence of assignments and indexed modifications over any set of variables, every nesting of values, every right-hand side expression that does not itself assign", "why_tests_cant": "all interleavings of updates", "anchors": ["apl/operators/assign.go: assignScalar, assignValue", "apl/var.go: AssignEnv, numVar.Eval", "apl/array.go: MixedArray.Copy, IntArray.Copy"]}
{"id": "C43", "title": "Function calls restore the environment", "statement": "Whatever a lambda does, including failing or recursing, after the call the caller's environment is the one before it, and names assigned in the body are not visible afterwards unless they existed outside.", "quantifier": "every program body, every call depth, every failure point", "why_tests_cant": "all call histories and failure points", "anchors": ["apl/lambda.go: lambda.Call", "apl/var.go: AssignEnv, LookupEnv"]}
{"id": "C44", "title": "Variables resolve to the innermost binding", "statement": "A lookup returns the binding of the innermost enclosing call frame that has the name; assignment in a frame never changes an outer frame's binding (except through modified/indexed assignment, which updates the binding found).", "quantifier": "every chain of frames and every sequence of assignments", "why_tests_cant": "all histories", "anchors": ["apl/var.go: LookupEnv, AssignEnv", "apl/lambda.go: lambda.Call"]}
{"id": "C45", "title": "Guards pick the first true condition", "statement": "A lambda body evaluates guards in order and returns the outcome of the expression of the first guard whose condition is true; later expressions are not evaluated; a condition that is not a boolean is an error; assignments are evaluated and passed. Exception: a guard whose expression is a call of ∇ starts the body again without its condition being looked at.", "quantifier": "every list of guards and expressions", "why_tests_cant": "all bodies", "anchors": ["apl/lambda.go: guardList.Eval, guardExpr.Eval"]}
{"id": "C46", "title": "Evaluation order and long right scope", "statement": "In a statement, each function takes everything to its right as right argument and the operand just left of it as left argument, whatever the nesting of parentheses, brackets and lambda functions; operators bind to the operand on their left and take one operand on the right; an axis in brackets behind a function or an operator applies to the function derived so far; a sequence of functions is a train; the right argument of a function is evaluated before the left one. Exceptions of the parser, proved as such: behind the first word of a statement, three monadic operators in a row, or a monadic operator followed by a word with a dyadic operator or several operators; an operator with an axis followed by a word with operators; a list element that uses brackets; indexing an already indexed value; a train in parentheses at the right end of a train is flattened, and the assignment of a train is not an assignment.", "quantifier": "every token sequence of the grammar (words, operators, vectors, index, axis of functions and operators, lists, lambda functions, trains, function assignment), of any length and nesting depth", "why_tests_cant": "unbounded expression length", "anchors": ["apl/parse.go: parseStatement, reduce, resolveBrackets, reducefA, reduceAfA", "apl/function.go: function.Eval"]}
{"id": "C47", "title": "Statement separation", "statement": "Diamonds outside braces separate statements (also inside parentheses and brackets, where the parts then fail to parse); the statements are parsed one by one and evaluated left to right, each one in the state its predecessor has left; the concatenation of the statements' tokens is the program without separators; a diamond at the end is ignored; the first failing statement stops the program and its error is the result; values are written in order except those of assignments; a closing brace without an opening one is an error.", "quantifier": "every token sequence", "why_tests_cant": "unbounded token sequences and nesting", "anchors": ["apl/parse.go: parse, nextStatement, splitTokens", "apl/eval.go: Eval, EvalProgram"]}
{"id": "C48", "title": "String literals round-trip through the scanner", "statement": "A string literal scans to exactly one token holding the string it spells and leaves the following input unread: between single quotes every character stands for itself and quotes are written twice, between double quotes Go's escapes apply, after a backtick the string runs to the next blank or closing character. Every string can be written with single quotes. Input starting with a quote is accepted only if it starts with such a literal; in particular an unterminated literal is rejected.", "quantifier": "every string and every following input", "why_tests_cant": "all strings", "anchors": ["apl/scan/scan.go: ReadString, scanString, nextToken"]}
{"id": "C49", "title": "Scanner consumes the line completely", "statement": "Scanning a line terminates and either fails or yields exactly the tokens of its division into lexemes (strings, longest numbers, registered symbols, longest names, punctuation) separated by blanks and ended by an optional comment; it fails exactly if there is no such division, the division is unique, and the texts of the lexemes together with the blanks and the comment are the line. Lines starting with a registered command are rewritten by it.", "quantifier": "every line", "why_tests_cant": "all inputs", "anchors": ["apl/scan/scan.go: Scan, nextToken, scanNumber, scanIdentifier"]}
{"id": "C50", "title": "Line buffer accepts exactly complete blocks", "statement": "A line buffer reports completeness after a line exactly if that line has tokens and the braces of the lines added so far are balanced (a line without tokens never completes, so ParseLines fails on a trailing empty line); it fails and is emptied exactly on a scan failure or a closing brace without an opening one; the parsed tokens are those of the lines joined by statement separators except after an opening brace (also in front of a closing brace).", "quantifier": "every sequence of lines", "why_tests_cant": "all histories of lines", "anchors": ["apl/multiline.go: LineBuffer.Add, LineBuffer.Parse, ParseLines"]}
{"id": "C51", "title": "Channel pipelines preserve order and lose nothing", "statement": "For every interleaving of source, stages and reader, the values received from a channel are a beginning of the one sequence of values the pipeline sends (source values mapped by the applied functions, filtered values left out, a failing value sent as an error and ending the stream, full groups for a reshaped channel); a reader that reads until the channel is closed receives exactly that sequence, and closing the channel always returns. Goroutines never panic in pipelines without reshape; they all return for chains read to the end and for a single stage closed early. Exceptions: with two or more stages closed early the inner goroutines wait forever, a failing function leaves its left channel waiting, and a reshaped channel that is closed while an array is ready panics. `<[k]R` is the source of k copies (of copies for ever for a negative k) for every index origin; exception: without an axis two copies are sent with the default origin 1.", "quantifier": "every interleaving of source, stages and reader, every value sequence", "why_tests_cant": "all schedules", "anchors": ["apl/channel.go: Channel.Apply, Channel.SendAll, Channel.Close, Channel.Scope, LineReader", "apl/primitives/channel.go: channelSource", "apl/primitives/rho.go: rhoChannel", "apl/primitives/take.go: takeChannel1, takeChannel2, closeChannel"]}
{"id": "C52", "title": "Reduction over a channel consumes it completely", "statement": "f/c over a channel is the left-to-right fold of the values the channel sends (an empty array for none), f\\c the vector of the running folds; the first failure of f is the error returned; for every schedule the result is the same, the reader returns when the sources are finite, and the channel is then closed in both directions.", "quantifier": "every value sequence, f and failure point", "why_tests_cant": "all stream lengths", "anchors": ["apl/operators/reduce.go: reduceChannel, scanChannel"]}
{"id": "C53", "title": "Primitive and operator dispatch uses the latest matching registration", "statement": "A primitive call is handled by the most recently registered handler whose domain accepts the arguments, which receives the arguments as converted by that domain; if none accepts, the call fails and no handler runs. A call of a derived function evaluates the right operand, then the left one, and calls the derived function of the most recently registered operator that accepts the operands with both arguments; registering a monadic and a dyadic operator under the same symbol is an error.", "quantifier": "every registration sequence and argument pair", "why_tests_cant": "all registration histories", "anchors": ["apl/register.go: RegisterPrimitive, RegisterOperator", "apl/function.go: Primitive.Call", "apl/op.go: derived.Call"]}
{"id": "C54", "title": "Domain combinators do not leak conversions", "statement": "A domain of a pair of arguments that rejects them leaves them as they were. Both and Split accept exactly if both arguments are accepted, Any and Or if the first or else the second (asked about the original value) accepts, Not if its child rejects, Monadic and Dyadic exactly without and with a left argument. The function is called with arguments that have the same elements in the same order (numbers may be converted to the integers or booleans of the same index) and the same axes up to axes of length 1. ToScalar and ToNumber accept values with one element, ToVector values with at most one axis longer than 1, ToIndexArray values all of whose elements are indexes. Exceptions: Not hands on what its rejecting child has converted, ToVector of an empty array does not ask its child, ToBoolArray panics on an empty array.", "quantifier": "every combination of domains", "why_tests_cant": "unbounded nesting", "anchors": ["apl/domain/domain.go: propagate, both, any, split, monadic, dyadic, not, or", "apl/domain/array.go: array, vector, boolarray, indexarray", "apl/domain/scalar.go", "apl/domain/numeric.go", "apl/domain/string.go", "apl/domain/operator.go"]}
{"id": "C55", "title": "Unification preserves values", "statement": "Converting a mixed array to a uniform one keeps the shape and every element value (up to numeric type). Without type promotion it succeeds exactly if all elements have one type. With promotion, an array of numbers of the tower always becomes an array of the highest type among its elements (if the tower has uniform arrays of that type, which the big tower does not), and an array of different types that are not all numbers is returned unchanged and reported as not uniform.", "quantifier": "every array", "why_tests_cant": "unbounded element sequences", "anchors": ["apl/uniform.go: Unify, UnifyArray"]}
{"id": "C56", "title": "Match is an equivalence on values", "statement": "For values whose elements are of one type (numbers of any type of the tower with exact comparison, strings, or values of one comparable type) L≡R is 1 exactly if both have the same shape and equal elements (arrays without axes: the same type); it is reflexive, symmetric and transitive; L≢R is its negation; ≢A is the length of the first axis (rows of a table, keys of a dictionary, 1 for a scalar); ≡A is the nesting depth of lists (1 for an array, 0 for a scalar). Arrays with elements that have no type in common are an error.", "quantifier": "every pair/triple of values of one element type", "why_tests_cant": "all values", "anchors": ["apl/primitives/match.go: match, notmatch, tally, depth"]}
{"id": "C57", "title": "Find marks the starts of occurrences", "statement": "L⍷R has R's shape and is 1 exactly where a copy of L starts in R.", "quantifier": "every pair of arrays", "why_tests_cant": "unbounded", "anchors": ["apl/primitives/find.go: find"]}
{"id": "C58", "title": "At operator changes only the addressed items", "statement": "(f@g)R and (v@g)R keep the shape of R and change exactly the elements addressed by g — the major cells of an index vector, or the ones of the mask returned by a function g — replacing the i-th addressed element in row-major order by the i-th value (a single value replaces all); f is called once with the array of the addressed elements. An index out of range, a g that returns no mask, or a wrong number of values is an error.", "quantifier": "every array and index set", "why_tests_cant": "frame property", "anchors": ["apl/operators/at.go: at"]}
{"id": "C59", "title": "Deal draws distinct values in range", "statement": "L?R returns L distinct integers from ⎕IO..R-1+⎕IO for every outcome of the random generator, rejects L>R and L<1, and every such selection is a possible result; ?R of positive integers keeps the shape and each result is in the range of its element.", "quantifier": "every L,R and every outcome of the generator", "why_tests_cant": "all random outcomes", "anchors": ["apl/primitives/query.go: deal"]}
{"id": "C60", "title": "Cut splits a list without loss", "statement": "Cutting a list at strictly increasing positions inside of it (counted from ⎕IO, negative from the end) yields consecutive segments, one for every position, whose concatenation is the list from the first position on; a single position yields the rest of the list itself; all other position vectors are rejected.", "quantifier": "every list and position vector", "why_tests_cant": "unbounded", "anchors": ["apl/primitives/take.go: cut"]}
{"id": "C61", "title": "Split and join of strings", "statement": "Joining the pieces of a string split at a non-empty separator with that separator gives the string back, and no piece contains the separator; runes of a string joined give the string back; an empty separator splits into words without white space; splitting a vector joined by a character that is in none of its strings gives the vector back.", "quantifier": "every string and non-empty separator", "why_tests_cant": "all strings", "anchors": ["apl/primitives/enclose.go: strjoin, strsplit, runesplit, strcat"]}
{"id": "C62", "title": "Matrix divide solves the linear system", "statement": "For numbers computed exactly (an ordered field, such as the rationals): for a square matrix A with more than one row, B⌹A returns X with A+.×X = B and ⌹A the two-sided inverse exactly if A is invertible (its determinant is not 0), and otherwise the matrix is reported as singular. For more rows than columns B⌹A is the least squares solution if the columns of A are linearly independent, otherwise an error. More columns than rows and different numbers of rows are rejected. A vector B counts as a matrix with one column (the result is a matrix). Exceptions: a single element A divides only a single element B (a longer one panics), and errors while solving for a B that is not numeric are ignored (parts of B are returned as the solution).", "quantifier": "every matrix A of any size over any ordered field, every right-hand side", "why_tests_cant": "all matrices of any size", "anchors": ["apl/primitives/domino.go: domino, domino2, lu, luSolve", "apl/big/rat.go"]}
{"id": "C63", "title": "Assignment to several names stores the elements in order", "statement": "A B C←R stores the elements of R under the names in order, or the single element of R under every name, as copies in the current environment; no other binding changes and the value is R. If R has several elements, but not as many as there are names, the assignment fails and no variable is changed by it.", "quantifier": "every list of names, every right argument, every state of the interpreter", "why_tests_cant": "number of names, values and environments are unbounded", "anchors": ["apl/operators/assign.go: assignVector", "apl/var.go: AssignEnv"]}
{"id": "C64", "title": "A dictionary of columns flips to a table and back", "statement": "⍉D succeeds exactly if every value of D is a scalar or a vector that can be brought to one type and all have the same number of elements; the table has the keys of D in order, one uniform column for each of them with the elements of the value, and as many rows as these have elements. ⍉T is the dictionary of the columns, and ⍉⍉T is T again for a table with columns.", "quantifier": "every dictionary and table", "why_tests_cant": "number and length of columns are unbounded", "anchors": ["apl/primitives/transpose.go: transposeObject, transposeTable", "apl/table.go: Table"]}
{"id": "C65", "title": "Indexing a table selects exactly the named rows and columns", "statement": "T[I;C], T[I] and T[C] return exactly the cells of the selected rows (numbers counted from ⎕IO, in the order given, or the rows where a function returns 1) and columns (names, in the order given), as a cell, a column, a dictionary or a table depending on the form of the indexes; T[] is the matrix of all cells. A row outside of the table and an unknown column are errors. Exception: an empty row index in T[I] counts as an empty list of column names and selects all rows of no column.", "quantifier": "every well-formed table, every index, both origins", "why_tests_cant": "tables, indexes and functions are unbounded", "anchors": ["apl/primitives/index.go: tableSelection, tableIndex", "apl/primitives/table.go: table2array", "apl/primitives/iota.go: where"]}
{"id": "C66", "title": "A table query aggregates every group of rows once", "statement": "T[I;C;f;G] groups the selected rows by the distinct values of the group column (or of the value of a group function) in the order of their first occurrence; every row is in exactly one group. Each aggregation function is called once for each of its columns and each group, in order, with the cells of the column in the rows of the group; the results form the columns of the result, next to the group column, with a row for each group (several, with the group repeated, if the function returns a vector). A function is applied to all columns, a dictionary of functions to as many columns, to a single column, or a single function to several columns; everything else is an error before any function is called. Different numbers of results for different columns are an error. Exception: a dictionary with a single function for several columns gives all results the same name.", "quantifier": "every well-formed table, every group column or function, every aggregation (functions may have side effects)", "why_tests_cant": "tables, groups and effects are unbounded", "anchors": ["apl/primitives/table.go: tableQuery", "apl/primitives/index.go: tableIndex"]}
{"id": "C69", "title": "A table update changes exactly the selected cells", "statement": "T[I;C]←R stores the scalar, or the cells of a dictionary, table or array on the right with the same columns and rows, in the selected cells; all other cells, the keys and the number of rows are unchanged. If the new cells have another type, the column is brought to a common type. T[I;C]f←R calls f once for each column, with the old and the new cells, and stores what it returns. Other keys or shapes on the right are rejected, as are values of f that are not vectors with an element for each row.", "quantifier": "every well-formed table, index and right argument with distinct columns, every modifier function", "why_tests_cant": "unbounded tables; functions with effects", "anchors": ["apl/operators/assign.go: assignTable", "apl/primitives/index.go: tableSelection"]}
{"id": "C67", "title": "Elementary functions apply to the values of dictionaries and tables", "statement": "An elementary function of a dictionary or table is applied to each of its values, a function of a value and a dictionary or table to the value and each of the values; the keys and their order stay the same and the result is a dictionary or a table again. A function of two dictionaries (or two tables) is applied to the values of each key of either of them, where a missing value counts as the zero of the other one; the keys are those on the left followed by the others. It fails if the function fails for one of the values. The results for proper tables with the same number of rows are proper tables with this number of rows. Exception: tables with different numbers of rows without a common column are not rejected.", "quantifier": "every dictionary and table, every elementary function", "why_tests_cant": "number of keys and their overlap are unbounded", "anchors": ["apl/primitives/table.go: table1, tableBoth, tableAny, dict2table"]}
{"id": "C68", "title": "Catenation of dictionaries and tables", "statement": "D,E of two dictionaries has the keys of both, the values of common keys are catenated; D⍪E merges them, the right one wins. T,U of tables with the same number of rows puts the columns side by side; T⍪U of tables with the same columns (in any order) appends the rows of each column, and different columns are an error. A table catenated with a dictionary on its right is an error; a value is catenated with each of the values. Exception: T,U with different numbers of rows gives a table whose columns have different lengths.", "quantifier": "every dictionary and table", "why_tests_cant": "number of keys, their order and overlap are unbounded", "anchors": ["apl/primitives/table.go: isTableCat, catenateTables, catenateTwoTables"]}
{"id": "C70", "title": "Displaying an array and parsing the text gives the array back", "statement": "For every array whose elements are numbers or strings that can be read back one by one, and whose axes all have positive length: parsing the text of ¯2⍕A gives an array with the same shape and the same elements; parsing ¯1⍕A (and ¯3⍕A for vectors and matrices) gives the same elements in the same shape except that leading axes of length one are left out. With a prototype of the same element type the result has the type of the prototype, and a result always has it. Parsing any text at any rank ends with an error or a rectangular array and never panics. (Exception: the text of an array without elements cannot be parsed back.)", "quantifier": "all shapes of any rank, all element lists, all texts, all number parsers and character classes", "why_tests_cant": "round trip over all ranks, shapes, strings (with quotes, newlines, escapes) and integers", "anchors": ["apl/fmt.go:ArrayString", "apl/fmt.go:jsonArray", "apl/fmt.go:matArray", "apl/fmt.go:ParseArray", "apl/fmt.go:ScanRankArray", "apl/primitives/format.go"]}
{"id": "C71", "title": "The text of an integer is its numeral and is read back as the same integer", "statement": "For every 64-bit integer the displayed text is the decimal numeral with a high minus for negatives (or 0/0x and the octal/hexadecimal numeral at PP ¯8/¯16 for non-negatives); the tower parses it as the same integer; the scanner reads the decimal text as one number token. (Exception: at PP ¯8 and ¯16 the text of a negative number cannot be parsed.)", "quantifier": "all 64-bit integers, all values of PP", "why_tests_cant": "2^64 integers", "anchors": ["apl/int.go:String", "apl/int.go:ParseInt", "apl/tower.go:Parse", "apl/scan/number.go"]}
{"id": "C72", "title": "The quoted text of a string is one string literal with the same value", "statement": "With a negative PP the text of every string is scanned as exactly one string token with the same characters, also in front of any other text, and contains only printable characters; otherwise a string is displayed as it is.", "quantifier": "all strings, all tables of printable characters in which newline is not printable", "why_tests_cant": "all strings of any length, including quotes, backslashes, control characters and code points outside of the BMP", "anchors": ["apl/string.go:String", "apl/scan/string.go:ReadString"]}
{"id": "C73", "title": "Reading arrays of rank k from a channel of strings sends exactly the cells, in order", "statement": "<⍤k C, for a channel whose strings are JSON texts of arrays of rank at least k, sends exactly the k-cells of these arrays in order and then ends without an error; for lines of words <⍤1 C sends one vector for each line, and <⍤2 C one matrix for each group of equally long lines between empty strings. For any strings the loop ends without a panic and sends only rectangular arrays. (Exception: if the first string is empty, nothing is sent.)", "quantifier": "all sequences of strings, all ranks k, all shapes", "why_tests_cant": "unbounded histories on the channel, all ranks and groupings", "anchors": ["apl/operators/rank.go:sendParseSubArray", "apl/channel.go:RuneScanner", "apl/fmt.go:ScanRankArray"]}
{"id": "C74", "title": "The mount table: the file system mounted last under a prefix of the name serves it", "statement": "After every history of mounts and unmounts the mount points are different from each other and begin and end with a slash. Mounting succeeds exactly for such a name that is not in use, unmounting removes exactly that mount point, and mounting followed by unmounting leaves the table as it was. Opening a name asks the file system that was mounted last among those whose mount point the name begins with, for the rest of the name, and fails exactly if there is none; creating a file uses the same file system and the same name if it is writable. A new mount changes which file system is asked for exactly the names below it. A failing mount call leaves the table unchanged; the protocol chosen for a source does not depend on the order of registration.", "quantifier": "all histories of mounts and unmounts, all names, all file systems, all sets of protocols", "why_tests_cant": "unbounded histories of mounts and all names; shadowing depends on the order of the mounts", "anchors": ["apl/io/fs.go:Mount", "apl/io/fs.go:Umount", "apl/io/fs.go:Open", "apl/io/fs.go:Create", "apl/io/fs.go:lookup", "apl/io/mount.go:mount"]}
{"id": "C75", "title": "Names in a mounted directory stay inside of it, and the names of a listing can be opened", "statement": "The path of a name without a part .. in a mounted directory is the path of the directory followed by the parts of the name. A name listed for a directory (opened with its final slash) is, when opened, asked from the same file system and is that entry of the directory, unless another file system is mounted over it. (Exceptions: a name with .. leaves the directory; the names in the listing of a directory that is opened without the final slash are wrong.)", "quantifier": "all mount tables, directories, names and entries", "why_tests_cant": "all path names, including dots, empty parts and nested mounts", "anchors": ["apl/io/fs.go:fs.path", "apl/io/fs.go:fs.Open"]}
{"id": "C76", "title": "Stencil: f is called once for every element with the neighbourhood of the element", "statement": "f⌺RO R calls f once for every element of R in row-major order with the part of R under the stencil centred on that element, zeros outside of R, and the result has the shape of R and the results of the calls as elements; the first failing call, or a result that is an array, ends the evaluation. The shape of the stencil is RO extended by ones for a vector, and the first row of RO for a matrix with two rows and a column for each axis. RO with more axes than R, or a stencil of size zero, is an error. The left argument of f is, for each axis, half the length of the stencil minus the index. (Exceptions to the documentation: the movement row has no effect; the left argument is the number of fill elements only on the leading side; the second row of a narrow matrix becomes part of the shape; an empty RO crashes.)", "quantifier": "all functions with any effects, all arrays, all shapes of the stencil", "why_tests_cant": "all ranks, shapes and stencil sizes; effects and failures of f at any call", "anchors": ["apl/operators/stencil.go:stencil"]}
{"id": "C77", "title": "Packages: loading is isolated, complete or not at all, and package variables never change", "statement": "In every session each package name stands for variables registered by Go code, exactly as registered, or for the environment of a file all of whose lines have been evaluated without an error, with the variables that it had at the end of the file; nothing that is evaluated later changes them unless a package of the same name is loaded. Loading a file as a package leaves, whatever the outcome, the current environment and all environments that existed before as they are; if all lines succeed pkg→x is the value of x at the end of the file, otherwise this load stores no package. Files may load other files. (Exceptions: ⎕IO and ⎕PP set by the file stay set; a function of a package that uses a variable of its package finds the variable of its caller.)", "quantifier": "all sessions: sequences of registered packages and lines of input with any outcome, all files (also nested loads), all primitives and operators", "why_tests_cant": "unbounded histories; failures at any line of any file at any depth of nesting", "anchors": ["apl/apl.go:LoadPkg", "apl/eval.go:EvalFile", "apl/register.go:RegisterPackage", "apl/var.go:packageVar", "apl/io/read.go:load"]}
{"id": "C78", "title": "A file is evaluated block by block, in order, up to the first failure", "statement": "The evaluation of a file whose first lines are a block (lines up to the first one after which all braces are closed) evaluates the program of the block and then, if it succeeds, the rest of the file; if the block fails, or cannot be parsed, or a line cannot be scanned or closes too many braces, the evaluation ends with an error and nothing more is evaluated. Blank lines and comments do nothing, and a file that ends inside of a block fails without evaluating anything of the block.", "quantifier": "all files, all ways to split statements over lines, all primitives", "why_tests_cant": "unbounded files and failures at any point", "anchors": ["apl/eval.go:EvalFile", "apl/multiline.go:LineBuffer"]}
{"id": "C79", "title": "Go values and functions are used from APL without change", "statement": "A Go value made of int, float64, complex128, string, structs and slices of these to any depth becomes an APL value that stands for it (slices are vectors with the same elements in the same order), and passing that value where Go expects the type gives the same Go value back. A value is accepted for a Go type exactly if it stands for a value of the type. Calling a Go function passes R to a single parameter, R and L in this order to two parameters, and otherwise the elements of the vector or list R in order, if there are as many as parameters; the function is called exactly once, or not at all if the arguments do not fit. An error result is the error of the call; otherwise no result gives the empty array, one gives its value and several give a list in order. Setting a field of a struct changes this field only, and reading it gives the value. Exceptions: uint can be received but not passed; type mismatches, a left argument with three or more parameters and a struct returned by value crash; a key in lower case can be read but not set.", "quantifier": "all Go types and values of these kinds, all APL values, all Go functions with any effects, all structs and fields", "why_tests_cant": "nested slices and parameter lists have unbounded size, and the exactly-once claim is about every Go function", "anchors": ["apl/xgo/convert.go export", "apl/xgo/convert.go Convert", "apl/xgo/function.go Function.Call", "apl/xgo/type.go Value.At", "apl/xgo/type.go Value.Set"]}
{"id": "C80", "title": "Images show the integers they are made of", "statement": "Converting an H by W array of integers from 0 to 0xFFFFFF to an image gives an image of shape H W whose values, in row major order, are these integers. Assigning an integer of this range to an element changes this element to it and no other. Everything else than an array of rank 2 is rejected. Exceptions: a color with transparency (up to 0xFFFFFFFF, which is documented) shows as another color; the element i;j that is read by index is that at j;i (0xFF0000 if this is outside); an indexed image with a palette is documented but always rejected.", "quantifier": "all heights, widths and integers, all elements", "why_tests_cant": "unbounded dimensions and all 32 bit colors", "anchors": ["apl/image.go Image.At", "apl/image.go Image.Set", "apl/image.go toIntArray", "apl/image.go colorValue", "apl/image.go toColor", "apl/domain/image.go ints2image"]}
{"id": "C81", "title": "A remote call is the call in the interpreter of the server", "statement": "The calls that clients make with rpc→call give, one connection after the other and in order, what the same calls (evaluate the text to a function, call it with the given arguments) give in the interpreter of the server, each seeing the state that the calls before it have left; errors come back as errors and the connection remains usable. A value that cannot be sent is an error that does not reach the server, and closes the connection; a result that cannot be sent is an error and closes the connection; on a closed connection all calls are errors and do not reach the server. Exceptions: on the same connection a call without left argument that follows one with a left argument is executed with this old left argument, and an empty function text stands for the previous one; a call that crashes ends the server for all clients.", "quantifier": "all sequences of connections and calls, all interpreters (parser, functions, state) and all values", "why_tests_cant": "unbounded histories of calls with state on both sides", "anchors": ["apl/rpc/rpc.go Conn.Call", "apl/rpc/server.go handle", "apl/rpc/server.go exec", "apl/rpc/server.go ListenAndServe", "apl/rpc/register.go call"]}
{"id": "C82", "title": "Arithmetic with times and durations is exact", "statement": "Adding a duration to a time stamp or a duration, in any order, gives the exact sum; the sum of two time stamps and a duration minus a time stamp are rejected. The difference of time stamps is the exact duration and adding it to the second gives the first; a time minus a duration is exact, and adding the duration again gives the time. Negation, absolute value and sign of durations are those of numbers, time stamps have no negative. The order of times is total, and agrees with the sign of the difference. ⌊ gives the last full second that is not after the time. Exceptions: durations are limited to 292 years and intermediate results beyond saturate; the begin of the year 1000 is neither time stamp nor duration; ⌈ gives the nearest full second, which may be before the time.", "quantifier": "all time stamps after the year 1000 and all durations below 292 years", "why_tests_cant": "unbounded numeric ranges with saturation at the limits", "anchors": ["apl/numbers/time.go Time.Add2", "apl/numbers/time.go Time.Sub2", "apl/numbers/time.go Time.Sub", "apl/numbers/time.go Time.Less", "apl/numbers/time.go Time.Floor", "apl/numbers/time.go Time.Ceil"]}
{"id": "C83", "title": "Rounding a time gives the begin of its period", "statement": "For a time stamp T and a period P of s, m, h, D, W, M, Q, Y the expression P⌊T terminates and gives the last begin of a second, minute, hour, day, ISO week, month, quarter or year (Gregorian calendar) that is not after T; other periods are errors. For a duration and a unit h, m, s, ms, us, ns it gives the nearest multiple of the unit, halfway the one farther from zero. An array is rounded element by element. Exception: the week of the first days of the year 1000 begins in 999, where times are taken as durations.", "quantifier": "all time stamps from the year 1000 on, all periods, all durations whose result does not leave the 64 bit range", "why_tests_cant": "all dates of the calendar, loops that must terminate for each of them", "anchors": ["apl/numbers/time.go Time.Round", "apl/numbers/time.go roundQuarter", "apl/numbers/time.go roundWeek", "apl/numbers/time.go roundDuration", "apl/primitives/elementary.go roundTime"]}
{"id": "C84", "title": "Big numbers compute exactly", "statement": "With the tower of big integers and rationals set: + - × ⌊ ⌈ of two numbers, at least one of which is big, and ÷ by a number other than 0, give a number whose value is exactly the mathematical result, whatever the mix of Bools, native integers, big integers and rationals; on two integers the result of + - × ⌊ ⌈ is a big integer, and that of ÷ is one exactly if there is no remainder. All six comparisons (of any two numbers) compare the exact values. -x, ×x, |x, ÷x are exact; !n is exact for integers from 0 to 300 and an error otherwise; powers with an integer exponent of any type are exact; L∨R and L∧R are the greatest common divisor and the least common multiple, also of rationals. Division by zero gives infinity, 0÷0 not-a-number. Exceptions, each proved: zero to a negative power panics, a negative rational exponent loses its sign in place, the gcd of zero and a negative number is that number, floor and ceiling of a rational go through a float and may be off by one.", "quantifier": "all numbers of the tower and all mixes of their types", "why_tests_cant": "values are unbounded; tests cannot cover all sizes and mixes of types", "anchors": ["apl/big/int.go", "apl/big/rat.go", "apl/big/register.go SetBigTower", "apl/primitives/elementary.go arith1, arith2", "apl/tower.go SameType"]}
{"id": "C85", "title": "Variables as files", "statement": "A file of the mounted variables (/v/NAME) has the text of the value that the name refers to (the innermost binding); unknown names are errors. The listing has, in alphabetical order, a row for every variable of the current environment and for every package (with a slash), and a package lists its variables; every listed variable can be opened. A file can be opened for writing exactly if the variable exists and holds a string (never a package variable or directory). Opening and writing change nothing; closing assigns the concatenation of the texts written to that writer since it was last closed, in order, to the variable in the current environment and changes nothing else; reading the file afterwards gives exactly that text. A failing close has no effect. Exceptions: inside of a function the variable of the caller is hidden, not changed (C85_shadows), and writing to a given ⍺ has no effect. Environment variables (/e/NAME) behave alike: write then read gives the text, all others are unchanged, and exactly the names with = or zero bytes and empty names are rejected.", "quantifier": "every session, every nesting of function calls, every history of opening, writing, closing and evaluating with any number of writers", "why_tests_cant": "histories interleave any number of writers with evaluations", "anchors": ["apl/io/var.go: Write, Close, Open", "apl/io/env.go: Open, Write, Close", "apl/var.go: Vars, LookupEnv"]}
{"id": "C86", "title": "Commands", "statement": "A line that starts with a command (/h /q /p /cd /l /m /t) means the same as the written-out line: /h is a→h 0, /p REST is a→p REST, /l `file `pkg is `pkg io→l `file, /m SRC MPT mounts SRC at MPT with the symbols / and . taken as names, a command within the rest is rewritten first; /t LINE takes the time, evaluates exactly the statements of LINE, and gives the time since then. Exceptions: /t without a line or with a trailing diamond contains an empty statement (an error), and in front of a line that opens a block the end of the measurement lands inside of the block.", "quantifier": "every rest of the line, every tokens", "why_tests_cant": "all lines", "anchors": ["apl/a/commands.go: rw0, printCmd, timeCmd", "apl/io/mount.go: mCmd, cdCmd", "apl/io/read.go: lCmd", "apl/scan/scan.go: applyCmds"]}
{"id": "C87", "title": "Text of tables and CSV", "statement": "The text of a table has a header with the column names and one row per row of the table, with the text of each cell under the format of its column (if given); \"csv\"⍕T and \"csv\"⍕M write a CSV file (RFC 4180) whose records are exactly these rows (the rows of the matrix), and a CSV file can be read in one way only: commas, quotes and line breaks in cells survive. Arrays that are not matrices are rejected. Exceptions: a column format also applies to the elements of vectors in other columns (C87_format_leak), formats set by the user have no effect (C87_user_format_ignored), an empty cell in a table with one column is an empty line (C87_blank_line).", "quantifier": "every table with scalar cells, every matrix, every text of the cells, every column formats", "why_tests_cant": "every content of cells", "anchors": ["apl/table.go: Csv, WriteFormatted, write", "apl/primitives/format.go: formatCsv, formatTable"]}
{"id": "C88", "title": "Big numbers are displayed and read exactly", "statement": "In the tower of big integers and rationals the text of a number is its decimal numeral (with a high minus), or numerator, r and denominator in lowest terms; it is scanned as one number token and read back as a number of the same value, whatever its size. A fraction literal NrD denotes exactly N÷D and is rejected if D is 0; a decimal literal, also with an exponent, denotes exactly the value that is written (0.1 is one tenth).", "quantifier": "all integers and rationals of any size, all decimal literals (exponents up to a million)", "why_tests_cant": "numbers of unbounded size; every digit string", "anchors": ["apl/big/int.go:String", "apl/big/int.go:ParseInt", "apl/big/rat.go:String", "apl/big/rat.go:ParseRat", "apl/tower.go:Parse", "apl/big/register.go:SetBigTower"]}
{"id": "C89", "title": "Number literals of the default tower denote the nearest number", "statement": "A decimal literal with a dot or an exponent denotes the floating point number nearest to the written value, and so does a whole number that does not fit into 64 bits; two decimal literals with J or j between them denote the complex number with these parts; with the letter a between them, magnitude and angle in degrees, where the parts are exact for 0, 90, 180 and 270 degrees. A displayed complex number whose parts can be read back is read back as the same complex number. (Exceptions: 2.. and ¯Inf are accepted; for PP below ¯1 negative floats are displayed with a plain minus that is not read back, even in JSON where integers have a high minus.)", "quantifier": "all decimal literals, all digit strings, all rounding functions", "why_tests_cant": "infinitely many literals", "anchors": ["apl/numbers/float.go:ParseFloat", "apl/numbers/float.go:String", "apl/numbers/complex.go:ParseComplex", "apl/numbers/complex.go:String", "apl/numbers/register.go:newTower", "apl/tower.go:Parse"]}
{"id": "C90", "title": "Time stamps are written and read as calendar dates", "statement": "A literal yyyy.mm.dd, with Thh.mm, Thh.mm.ss or Thh.mm.ss.fraction behind it or not (the hour may have one digit), denotes exactly that instant of the Gregorian calendar; a date that is not in the calendar (29 February of a common year, month 13) or a time that is not on the clock is not a time stamp, and no text denotes two instants. The text of a time stamp from the year 1000 on is yyyy.mm.ddThh.mm.ss.mmm of its date and time, whatever the precision, and up to the year 9999 reading it back gives the time cut to milliseconds. Exception: with a precision below ¯1 a duration is displayed as a date of the year 0.", "quantifier": "all texts, all instants, all precisions", "why_tests_cant": "the calendar has infinitely many days with irregular months and leap years, and the texts are unbounded; a test samples dates", "anchors": ["apl/numbers/time.go:ParseTime", "apl/numbers/time.go:layouts", "apl/numbers/time.go:String", "apl/tower.go:Parse"]}
{"id": "C91", "title": "Durations are written and read exactly", "statement": "A duration literal is a sequence of numbers with the units h, m, s, ms, us, ns, with a high minus in front if it is negative, and denotes the sum of its parts, if fractions are whole nanoseconds and the sum fits in 63 bits. The text of a duration is such a literal: hours, minutes and seconds below 60 from one second on, else the largest unit that is not below one, without zeros at the end of the fraction; reading it back gives the same duration to the nanosecond, and it is a single token for the scanner. Exception: durations from a microsecond to below a millisecond are written with the micro sign, at which the scanner ends the number, so that typing the text in gives a number and a variable.", "quantifier": "all durations of 64 bits, all sequences of parts, all precisions from ¯1 on", "why_tests_cant": "there are 2^64 durations and unboundedly many literals; tests try a few", "anchors": ["apl/numbers/time.go:ParseTime", "apl/numbers/time.go:String", "apl/scan/scan.go:ScanNumber", "apl/tower.go:Parse"]}
{"id": "C92", "title": "Programs do what they mean, from their text to the text of their results", "statement": "A line of text that spells a program of integer arrays (numbers and vectors, variables, the primitive functions + - × ⌊ ⌈ = ≠ < ≤ > ≥ ⍴ ⍳ , ⌽ ↑ ↓ with one or two arguments; the operators for reduction, scan, commute and each; lambda functions with guards, local variables and recursion, named functions, parentheses, statements separated by diamonds), typed into a new interpreter, succeeds and writes exactly the values that the meaning of the program gives, whenever it gives any; the arithmetic is the one of 64 bit integers, the scope is dynamic, arguments are evaluated from right to left and reductions and scans go from right to left, and each goes from the first element to the last. Numbers and vectors are displayed as decimal digits with high minus and single blanks. Variables and functions of a line are known in the following lines.", "quantifier": "all programs of the language, all ways to write them with the same tokens, all sessions of such lines", "why_tests_cant": "programs and sessions are unbounded and recursive; tests run a few expressions, and each test covers scanner, parser, interpreter and primitives only for its own text", "anchors": ["apl/apl.go:ParseAndEval", "apl/scan/scan.go:Scan", "apl/parse.go:parse", "apl/eval.go:Eval", "apl/lambda.go:Call", "apl/primitives/elementary.go:arith2", "apl/operators/reduce.go:reduction", "apl/fmt.go:ArrayString", "apl/operators/reduce.go:scanfunc", "apl/operators/each.go:each1", "apl/primitives/reverse.go:rotate"]}
{"id": "C93", "title": "Ravel with axis, table, catenate first and enlist rearrange without losing or reordering elements", "statement": ",[X]A with consecutive ascending axes X replaces those axes of A by one, in row-major order; ,[n+f]A with a fraction 0<f<1 inserts one axis of length 1 between axes n and n+1; ,[⍳0]A appends one; ⍪A is the matrix with one row for each item along the first axis; A⍪B puts the items of B after those of A along the first axis (an argument of rank one less, or a scalar, is one item); ∊R lists every value inside the nested list R that is not a list exactly once, depth first. Axes that are not consecutive are an error, as are two or more axes of which one is missing and fractions beyond the rank. Exceptions of the code: a single axis is never checked; an integer array without elements becomes the empty array; ⍪ of the empty array panics; ⍪ of two scalars is an error.", "quantifier": "all element types, array representations, shapes and ranks, axis vectors, fractional axes; all nested lists", "why_tests_cant": "shapes of unbounded rank, axis positions and nesting depth form an infinite family; the index correspondence has to hold at every index", "anchors": ["apl/primitives/comma.go: ravelWithAxis, table, catenateFirst, enlist", "apl/primitives/axis.go: splitAxis, splitCatAxis"]}
{"id": "C94", "title": "Tack reductions, reductions of dictionaries and tables, and identity items", "statement": "⊣/A and ⊢/A take the first or last element of every vector along the last axis (of a vector: its first or last element); f/D and f\\D of a dictionary or table apply the reduction or scan to the value of every key, keep the keys and their order, and a reduced table has one row; the first failing key fails the whole; the item that f/⍳0 gives for an arithmetic function, a comparison or a connective is an identity of f on one side, for every integer or truth value. Exceptions of the code: ⊣⌿ and ⊢⌿ also use the last axis; the items of ⌊ and ⌈ are exchanged, so ⌊/⍳0 is no identity; 1∧x is the magnitude of a negative x.", "quantifier": "all arrays, element types and ranks; all dictionaries and tables; all functions with effects and failures; all 64 bit integers and truth values", "why_tests_cant": "identities must hold for every argument; shapes and key sets are unbounded", "anchors": ["apl/operators/reduce.go: reduction, reduceTack.Call, reduceTable, dict2table", "apl/operators/identity.go: identityItem"]}
{"id": "C95", "title": "Indexes at depth into dictionaries", "statement": "D[k;l;…] with several keys reads the value at that path of keys; keys may be followed by the path of an item of a list or by the indexes of an array, which then apply to the value found. D[k;l;…]←R and D[k;l;…]f←R change exactly that value (to R, to old f R), keep every other value of the dictionary and of the dictionaries, lists and arrays on the way, and keep all keys and their order. A name that is not a key is rejected and never added; a table inside a dictionary cannot be indexed at depth. Exception: if the indexes after the keys select no element of an array, the whole array is replaced by R.", "quantifier": "every nesting of dictionaries, lists and arrays, every path, every value and modifier", "why_tests_cant": "nesting depth and paths are unbounded; what must stay unchanged ranges over all other paths", "anchors": ["apl/primitives/index.go:objDepthSelection,objDepthIndex,listSelection", "apl/operators/assign.go:assignObject,assignObjectDepth,assignList"]}
{"id": "C96", "title": "The text of nested values at PP ¯2 is JSON", "statement": "With ⎕PP←¯2 the text of a value built from integers, truth values, strings, arrays, lists and dictionaries is a JSON text (RFC 8259) that reads back as this value (arrays as nested JSON arrays, with the item at each index in its place, dictionaries as objects with the same members in the same order) exactly if all integers are not negative, there are no truth values, all keys are strings and no string has a character without a JSON escape (bell, vertical tab, other control characters, unprintable characters beyond 16 bits). In all other cases the text is no JSON at all. Two such values with the same text have the same JSON value. Exception: an empty array has no text: it vanishes in a list, and makes a dictionary unreadable.", "quantifier": "every nesting of scalars, arrays of any rank, lists and dictionaries, every string and every 64 bit integer", "why_tests_cant": "nesting, ranks and strings are unbounded; that a text is no JSON is a statement about every way to read it", "anchors": ["apl/list.go: String, jsonString", "apl/object.go: Dict.String, jsonString", "apl/fmt.go: jsonString", "apl/string.go: String.String"]}
{"id": "C97", "title": "The text of a nested list is an expression for it", "statement": "With a negative ⎕PP other than ¯2 and ¯3, the text of a nested list of numbers, strings, vectors (two or more elements), empty arrays and lists of them can be typed in: it is scanned, parsed and evaluated to the same value, which is displayed again, and nothing else changes. Different values of this kind have different texts. All 64 bit integers and truth values can occur (at ¯8 and ¯16 no negative ones). Exceptions of the code: a vector with one element has the text of its element; the text () of the empty list is an error.", "quantifier": "every nesting and length of lists, every string, every number whose text is read back, every state of the interpreter", "why_tests_cant": "nesting and strings are unbounded; scanner, parser and evaluator have to agree on every text", "anchors": ["apl/list.go: List.String, list.Eval", "apl/fmt.go: ArrayString", "apl/string.go: String.String", "apl/parse.go: parseList, subStatement", "apl/scan/scan.go: Scan"]}
{"id": "C98", "title": "Complex arithmetic computes the mathematical values", "statement": "With complex numbers of arbitrary precision, in exact arithmetic (no rounding): conjugate, sum, difference, negation, product, reciprocal and quotient are the mathematical values (the quotient q of a and b satisfies q×b = a, and is infinity exactly if b is 0), the magnitude is the non-negative number whose square is the sum of the squares of the parts, the result is a new number and the arguments (which may be the same number) keep their values. The floor of a complex number is the only Gaussian integer in whose diamond it lies, it is at a distance below 1, moves along with Gaussian integers and is the ordinary floor on the real axis; likewise the ceiling. A complex number is an index iff it is a whole real number. Exceptions of the code: the direction ×c is the right value but every c other than 0 is a different number afterwards; the big floor is taken of the float64 nearest to the parts.", "quantifier": "every complex number, every contents of memory, arguments that are the same number or not", "why_tests_cant": "the values range over a field, the memory is arbitrary, and the branches of the division, magnitude and floor depend on signs and comparisons", "anchors": ["apl/big/complex.go: Add, Add2, Sub, Sub2, Mul, Mul2, Div, Div2, div_, Abs, abs, Floor, Ceil", "apl/big/float.go: Floor", "apl/numbers/complex.go: Floor, Ceil, ToIndex, Mul"]}
{"id": "C99", "title": "Text read from a channel", "statement": "A program that reads the text of a channel (a channel as the input of an executed program), with buffers of any sizes, gets the texts of all values in order and is told about the end only after all of it, after at most as many reads as there are bytes. The runes read from a channel of strings are those of the strings joined by newlines, then the end is reported, again and again; a value that is not a string is an error after the text before it; a rune can be put back and is read again. Exceptions of the code: the text of a channel begins with a newline; if the first string is empty, the end is reported at once.", "quantifier": "every sequence of values, every sequence of buffer sizes, every number of reads", "why_tests_cant": "streams and buffer sizes are unbounded", "anchors": ["apl/channel.go: NewChannelReader, ChannelReader.Read, RuneScanner.ReadRune, RuneScanner.UnreadRune", "apl/io/read.go: exec", "apl/operators/rank.go: sendParseSubArray"]}
{"id": "C100", "title": "Selection by a function", "statement": "For every array A, index origin and function f that returns an integer for each call, A[f]←v calls f once for each element in row-major order, with the element's index vector (counted from ⎕IO) on the left and its value on the right, and assigns v (or old g v for A[f]g←v) to exactly the elements for which f returned 1; all others keep their values. A function that returns something that is not an integer makes the assignment fail. Exception (finding): an empty result, documented as 'not selected', does not advance the index vector, so that later calls get the index of an earlier element; a function returning empty for the first index is never called with another one.", "quantifier": "all arrays of all shapes, all element values, all functions (with or without effects and errors), all origins", "why_tests_cant": "tests try two functions on 3 3 arrays, both of which always return a number; the property is about all shapes and functions and the order of calls", "anchors": ["apl/primitives/index.go funcArrayIndex", "apl/primitives/index.go indexSelection", "apl/operators/assign.go assignValue"]}
{"id": "C101", "title": "The command apl", "statement": "Without arguments, apl reads lines (the text before each newline, without a carriage return at its end; a last line without newline counts if it is not empty), evaluates them one after the other with the interpreter the line before left, prints a prompt before each and the message of an error after its line, and goes on with the next line after an error; a line that is rejected by the scanner or parser changes nothing; the session itself never ends with an error. With a file (or - for the standard input) it evaluates its lines and ends normally exactly if the file can be opened and its evaluation succeeds. Exceptions of the code: only the first of several files is evaluated; the input silently ends before the first line with 65536 or more bytes; a line that makes the parser panic ends the interpreter.", "quantifier": "all inputs, all files and arguments, all interpreters (primitives, operators, packages)", "why_tests_cant": "sessions have any number of lines; tests run single files without errors in the middle", "anchors": ["cmd/apl.go: Apl", "apl/eval.go: EvalFile", "apl/apl.go: ParseAndEval"]}
{"id": "C102", "title": "The test runner", "statement": "The output of a program is accepted exactly if it equals the content of its .out file byte by byte; otherwise the report names the first byte that differs (or the one behind the shorter text). A test passes exactly if the program ended without error with the expected output, or with the error of the .err file; the tests of a directory pass exactly if all its programs pass, in any order. Exceptions of the code: the reported line is one too many if a newline was expected at the differing byte; the output before an error is not compared.", "quantifier": "all outputs, all expected files, all directories", "why_tests_cant": "the test runner is what decides the other tests; that it accepts nothing wrong cannot be seen from passing tests", "anchors": ["cmd/testing.go: AplTest, testAplFile, compareError, compareOut"]}
{"id": "C103", "title": "Programs and environment of the operating system", "statement": "io→x starts a program exactly if its argument (the left one if there are two) is a string or an array of strings with a first element, and this, if it begins with a slash, is the name of a file in a mounted directory of the operating system: the directory mounted last among those that the name begins with; the path is then that of the directory followed by the rest of the name. The other strings are the arguments, the right one of two arguments is the input; a call that fails changes nothing. The keys of io→e are exactly the names with a value; an assignment succeeds exactly for strings that the system accepts, then the value is found at its name and all others are as before. Exceptions of the code: a variable with an array of strings keeps the relocated name, so that a second call relocates it again; a key that is no string has the empty string as value.", "quantifier": "all arguments, all mount tables, all environments", "why_tests_cant": "mount tables and histories of calls are unbounded; the effect on the variable is only visible in a later call", "anchors": ["apl/io/read.go: exec", "apl/io/env.go: Keys, At, Set", "apl/domain/string.go: ToStringArray"]}
{"id": "C104", "title": "An axis specification names the same axis under every index origin, or is rejected", "statement": "In f[N]A for reverse, rotate, reduction, n-wise reduction, scan, replicate, expand, take, drop and catenate, N selects axis N-⎕IO (counted from 0), whatever axis the symbol itself stands for and of whatever numeric type N is; ⎕IO in the brackets is the same as the first-axis symbol and ⎕IO+(⍴⍴A)-1 the same as the last-axis symbol. Adding the same amount to ⎕IO and to every number in the brackets never changes a result or an error. A number above the last axis, or more than the rank below the origin, is never accepted, and reverse, rotate, reduction and scan fail, without calling f, if the brackets hold anything but exactly one whole number. A fraction in the brackets of catenate inserts a new axis before the one its ceiling names. Exceptions: numbers up to the rank below the origin are not rejected by reverse, rotate, reduction, scan, replicate and expand but count from the end (⎕IO 1: +/[0]A is +/A; n-wise reduction: only the number just below the origin); the axis of a rotated vector and of a reduced one-element vector is not checked; an empty left argument of take returns the argument with its axis; an array without elements in the brackets that is neither ⍳0 nor integers crashes.", "quantifier": "every array, index origin, axis value of any numeric type, and every function f with any effects", "why_tests_cant": "shape, rank, origin, axis and type of the axis number combine without bound, and f is arbitrary", "anchors": ["apl/operators/axis.go splitAxis", "apl/primitives/axis.go splitAxis splitCatAxis", "apl/primitives/reverse.go", "apl/operators/reduce.go", "apl/primitives/take.go", "apl/primitives/comma.go"]}
{"id": "C105", "title": "The stream processor iv runs its arguments as one program over its input", "statement": "iv succeeds with a program exactly if a session of the interpreter with two lines, the definition of r and s and the program, has no message, and then its output and effects are those of that session; it ends with an error exactly if one of the two lines has one, and if the first line fails the program is not run. Neighbouring arguments may be written as one with a blank between them; without an argument it fails. A test file passes exactly if its first line is one comment character followed by a program, iv succeeds with this program and with exactly the text behind the first newline as its input, and the output is the content of the expected file. Exceptions: a panic of the parser ends iv without a message of its own (iv '-A[1][2]'); a test file without a newline fails.", "quantifier": "every program, argument list, interpreter state, environment, test file and expected output", "why_tests_cant": "programs, arguments, inputs and the state they find are unbounded", "anchors": ["cmd/iv.go Iv", "cmd/iv/main.go main", "cmd/testing.go testIvFile readline"]}
