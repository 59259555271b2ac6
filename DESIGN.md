# Formal model of mevid93/flbwt in Lean 4

## Aim
`flbwt::bwt_string` is the Okanohara–Sadakane BWT-by-induced-sorting algorithm: S* substrings are put in
a hand-rolled byte-buffer hash table, named, the shortened string is suffix-sorted by an in-place SA-IS
(five integer widths), and the BWT is induced with block queues of packed integers. The model follows this
code function by function, with the real memory layout (byte buffer, packed 64 bit words, SA workspace
aliasing), and the goal is one end-to-end theorem: for every input, the value returned is the BWT.

## Modelling conventions
* Result type `M α = Except Err α`; `Err` is either a C++ exception (`throw`) or a fault (`ub`:
  out-of-bounds access, null dereference, division by zero, non-termination/fuel exhausted, type confusion, a stored
  value that does not fit, a release without a block).
  A theorem "returns ok" therefore includes memory safety and termination.
* Memory blocks are `Mem α` = size + contents; all accesses are checked. Fresh memory from
  `malloc/realloc/new` has contents given by an arbitrary *oracle*; theorems quantify over all oracles.
* `uint64_t` bit manipulation in the packed array is on `BitVec 64`; the split 40/48/56 bit integers are on
  `BitVec`; elsewhere unsigned integers are `Nat` (with explicit `% 2^64` where the code can wrap) and signed ones `Int`,
  and a store into SA of a value that does not fit the entry is the fault `overflow`; unsigned subtractions that are not
  obviously non-negative wrap modulo 2^64 (`subU64`, `toU64`).
* Releasing more blocks or closing more streams than are open in `bwt_file` is the fault `badFree`.
* Pointers into the hash table buffer are offsets; pointers into SA workspace are offsets in SA.
* `for` loops are `loopUp/loopDown`, `while` loops take fuel; running out of fuel is a fault, proved impossible.
* `std::sort` is a parameter with its standard contract (sorted permutation for a strict weak order).
* Allocation: the blocks a stage works on are values (`Mem`); `realloc` of the table can fail (`Fresh.lim`; the result is
  not checked by the code, so the next access is the fault `nullDeref`), every other request succeeds in the model of the
  computation. The separate modules `Heap*.lean` repeat the program with every request for memory and every release
  explicit, each tagged with its operator family (`malloc`/`free`, `new`/`delete`, `new[]`/`delete[]`: a mismatch is a
  fault), and with an arbitrary schedule of failures (C47-C51); they are proved to compute the same thing.
* File system calls (`File.lean`) take their answers from an arbitrary `Host`.

## Trusted base
* Lean 4.33.0's kernel. The theorems depend on `propext`, `Classical.choice` and `Quot.sound` only (`vcheck` prints the
  axioms of every theorem); no axiom is declared, no `native_decide`/`bv_decide`, no unfinished proof.
* That the Lean definitions follow the C++ text. Every definition cites the lines it models; the mutation log
  `seeded/LOG.jsonl` shows which theorems notice a change.
* Evidence for the fidelity of the model, besides the citations: `Tests.lean` evaluates the model on the inputs of the
  repository's own unit tests; `Checks.lean` proves that each fault check of the model really fires (an access one past the end,
  a value that does not fit, a wrong operator family, ...), so that "returns ok" cannot be satisfied by a lenient checker.
* Non-vacuity: every claim has examples meeting its hypotheses, beside the theorem or in `Instances.lean` (`bwt_string` on
  "banana"), `Instances2.lean` (hash table, sorters), `Instances3.lean` (files), `Instances4.lean` (memory, time, concurrency), `Instances5.lean` (recycled memory),
  where the theorems are applied to concrete calls and give the concrete result.
* Assumptions that appear as hypotheses of the theorems, not as axioms:
  - `GoodCall` / `FileCall`: 3 ≤ n < 2^57, bytes below 256, `T[n]` readable and not larger than any byte of the string (0 always is), enough memory for the table, and
    `LengthsSafe` (C18: fresh memory is zero where `set_length` leaves a length byte unwritten; automatically true for all
    texts whose S* substrings and head string have no length that is a multiple of 256 or whose heap is zeroed).
  - `SortsOK`: `std::sort` returns a sorted permutation whenever the comparison it is given is a strict weak order and does
    not fail; `SortThrows`: it passes on errors of the comparison. `insSort_ok` shows the contract can be met.
  - Fresh memory, the undefined shift in `BIT_MASK` and file system answers are universally quantified.

## What is modelled and what is not
| code | model | not modelled |
|---|---|---|
| src/flbwt.cpp | `Front.lean`, `Bwt.lean`, `File.lean`; with the heap `HeapModel.lean`, `FileHeap.lean` | texts of the exception messages |
| src/hashtable.cpp | `Hash.lean` | nothing. In `Hash.lean` pointers into the buffer are offsets; `PtrModel.lean` repeats the functions that keep pointers with pointers that know the block `realloc` returned (C56) |
| src/packed_array.cpp, src/queue.cpp | `Packed.lean`, `Queue.lean` | unused field `max_value` |
| src/container.cpp | `Induce.lean` | destructor: see `Heap*.lean` |
| src/sais{32,40,48,56,64}bit.cpp | `Sais.lean` over the class `SaStore` (`Store.lean`), five instances | the five files were compared line by line: up to the `SaStore` operations they are the same program |
| src/induce{32,40,48,56,64}bit.cpp | `Induce.lean` over `SaStore` | same remark |
| src/utility.cpp, include/utility.hpp | `Packed.lean` (`positionOfMsb`, `BIT_MASK`, `get2`), `Store.lean` (split integers) | - |
| examples/bwt.cpp | `File.lean` (C43) | - |
| test/, lib/ | - | not part of the library |

Simplifications: in sais*.cpp, hashtable.cpp, induce*.cpp and in the string lengths of flbwt.cpp sums, differences and
conversions are machine arithmetic (`addU64`, `subU64`, `toU64`, `toI64`, and `addI64` with signed overflow as a fault).
Not wrapped: loop counters and counters that change by one per iteration, positions in the text plus one, sums that only
serve as an index of a checked access, sizes of requests whose terms are sizes of existing objects, the unused count
`collisions` (the bound 2^57 on the text keeps the others from wrapping);
`finish` does not take `T` (the code after `free(T)` does not mention it); a row of deleted queues cannot be used any more.
The code has no threads and no global state; `Conc*.lean` model several threads of the caller (atomic actions: one request, one
release, one piece of code that reads the text; memory of a thread is not visible to the others). In that model the text is not
a parameter of the program: a thread gets to see it only by the action that reads it from the shared memory.

Alignment and strict aliasing are not modelled. The places where the code looks at memory through a pointer of another type:
`chr` in sais*.cpp reads the suffix array as unsigned integers of the same width, `get2` reads the
packed words, the record fields are read and written byte by byte (no misaligned access).

## Plan per property
| property | modelled by | proof |
|---|---|---|
| C01,C02,C05,C32,C34,C35 | whole pipeline `bwtString` | composition of stage theorems; induced sorting correctness with closed-form loop invariants (state at scan index i is a function of i and of the suffix order) |
| C03,C04,C36 | `bwtString` entry | case analysis; C04 is a proved violation |
| C06 | signature of the stages after release, explicit `freed` state; `TextOk` on the tree of actions (`ConcText.lean`) | direct; one lemma per function: which functions touch the text |
| C07,C08,C09 | `bwtFile` | case analysis + inversion theorem of BWT (LF mapping) |
| C10-C12 | `PackedArray` on `BitVec 64` | bit extensionality |
| C13,C14 | `Queue` as list of blocks with offsets | refinement to `List` |
| C15-C17 | `HashTable` byte buffer | representation invariant: each bucket's chain of records lists the inserted strings |
| C18 | `setLength/getLength` | proved under side condition, negation witnessed |
| C19 | field codecs | induction on bytes |
| C20,C21 | `extractLMS` | right-to-left loop invariant |
| C22 | `sortLMS` | order lemma on S* substrings |
| C23 | `createShortened` | loop invariant |
| C24,C25,C27,C28 | `sais` generic over an integer store, five instances | induction on length; stage theorems |
| C26 | split stores | `BitVec` arithmetic |
| C29,C30 | `positionOfMsb`, dispatch in `bwtIs` | arithmetic |
| C31 | `hashFunction` | induction |
| C33 | `induceBwt` generic over the SA store | same theorem for each instance |
| C37-C42 | `bwtFile` over `Host`: file system state, answers of `fread`/`fwrite`/`ftell`, open handles and blocks | case analysis on the run; the string part is C01 |
| C43 | `exampleMain` | same |
| C44 | `HashTable` | potential function: buffer size against the inserted bytes |
| C45 | `bwtString` in dirty memory | the length field reads back wrongly (C18), run the code on it; proved violation |
| C46 | `Fresh.lim` | `Cut` relation between the runs under two limits |
| C47 | `bwtStringH` (`Heap*.lean`): every allocation and release explicit | ownership invariant: the blocks of each queue, the table, the arrays; final heap = initial heap + BWT array + result (- T) |
| C48 | `bwtStringH` under an arbitrary schedule of failing requests | simulation of `bwtString`: a run without a failed request is that run; else `bad_alloc` or null dereference |
| C49 | same | witnesses before and after `free(T)` |
| C51 | same | every failure after the first request is after `new Container`, which only the last line of `bwt_is` releases |
| C50 | same, with a high-water mark | the number of queued items never grows; block count from item count; failing calls by comparison with the same call under a schedule that refuses nothing (`Peak.lean`) |
| C52 | `extractLMS`, counter `collisions` | blocks `1 w` with `w` increasing give free choice of the stored strings; pigeonhole over the hash; the scan passes every record of the chain before it accepts a new string; proved violation of "linear time" |
| C53 | counting versions `…T` of all functions of `bwt_string` (`TimeModel`, `TimeFrontModel`), monad `TM` = model + number of loop iterations | erasure theorems: the counting program is the model; cost lemmas per loop (amortised for the compaction and naming loops of the suffix sort, potential = string lengths for the table), sum over LMS strings ≤ n; the lower bound pays C52's collisions with iterations |
| C54 | `saisT` | same cost lemmas, recursion by induction on the depth (half the length per level) |
| C55 | fault `overflow` of every store into SA | corollary of the stage theorems; the fault is characterised exactly |
| C56 | `bwtStringP` (`PtrModel.lean`): pointers = block number + offset, outcome `stale` for the use, comparison or subtraction of a pointer into a released block | relational proof, function by function: the program with blocks equals the program with offsets |
| C57 | `bwtFileH` (`FileHeap.lean`): `bwt_file` with every request and release, incl. the array `rank` | case analysis along the run on top of C48; reachability with a schedule that refuses only `rank`; memory bound for failing calls as in C50 |
| C58 | the history of the file system in `FHState`: one state per byte written | invariant: the output grows byte by byte through the prefixes of the format |
| C59 | `Queue` (`PropsMisuse.lean`) | invariant relating the front offset to the numbers of calls modulo 1024 |
| C60 | `PackedArray` | bit-level description of `set_value` without the assumption that the value fits |
| C61 | `HashTable` (`PropsMisuse2.lean`) | invariant of the table after the history, then the run of the offending call |
| C62 | `bwtStringH` and a client (`PropsSession.lean`) | induction over the history, invariant: live blocks = initial + two per result held |
| C63 | the byte after the string (`PropsEnd.lean`) | C01's proof needs only `T[n] ≤ T[i]`; uniqueness of the transform; naming theorem without that assumption, with a text whose names come out in the wrong order |
| C64 | what row `last` holds (`PropsLast.lean`) | the invariants of both inducing passes also track the row of the whole string: byte before the head string, left-over of the stack of S* bytes, or the initial content |
| C65 | raw words of a packed array (`PropsLayout.lean`) | induction over the history of stores with the bit-level specification of `set_value` |
| C66 | `bwtStringC` (`Conc*.lean`): the model with the heap as a tree of actions (request, release, access to the text); machine of any number of threads with an arbitrary scheduler and allocator | erasure (a thread alone is the model with the heap); C48 for every schedule of refusals gives a weakest precondition for refusals chosen step by step; invariant per thread; measure for termination; explicit schedule for the violation |
| C67 | same, allocator with a capacity | C50 along the granted path bounds what a thread holds at every step |
| C68 | `bwt_file` as a tree of file system actions (`ConcFile.lean`), machine with any number of calls and other programs | phase invariant per call over all reachable states; explicit schedules for the two counterexamples |
| C69 | constructors of `PackedArray`/`Queue` with widths outside 1..64 or sizes of 2^64 bits | direct computation with the faulting shifts of `Packed.lean`; induction over the values enqueued |
| C70 | first-level call with the text in an integer array (`Txt.ints` in `Sais.lean`) | the stage theorems are stated for any readable text (`TextAt`); one more case there |
| C71 | same, `n = 0` | every step either faults or keeps the array empty; the first `*b++ = j` faults |
| C72 | histories of `insert_string`, `set_name` (on the record found by the walk of `sort_LMS_strings`) and `find_name` in any order | induction over the history with the invariant `Holds`: the table invariant of C15–C17 plus the name bytes of every named record; insertion keeps owned name bytes (`Added.names`) |
| C73 | same histories, then the walk | the table invariant gives each record; disjointness from the ownership tags of bytes and the order of records in a bucket's chain |
| C74 | `HashTable(0, n)` and `HashTable(1, n)` | `hash_function` with divisor 0 |
| C75 | `bwt_file` with a failing `bwt_string` | the run is cut at the call of the transform (`bwtFile_via`); C45 and C46 give the two families |
| C76 | the `sais_*` calls with a character `≥ k` and `fs < k` | `ErrIn` run of `getCounts` on the `k` allocated counters: it cannot get past that character |
| C77 | sequences of `bwtFile` calls on one file system | induction over the sequence with a provenance table as specification |
| C78 | `bwt_string` with an arbitrary byte `T[n]` (`Gen*.lean`, `PropsAnyEnd.lean`) | the induced sort proved for every order of the rows that obeys the local conditions of the two passes; such an order is constructed from the text; a permutation argument gives the multiset of the result; on "babab"+'c' the order is computed and differs |
| C79 | `bwtString`; decoder `invert` | C01 + inversion theorem of `BwtSpec.lean` |
| C80 | `bwtString`, `bwtFile`; `backwardSearch` (specification) | C01, C07; interval bounds = numbers of suffixes below / up to the pattern (down-closed sets of suffixes) |
| C81 | `bwtString` with a `std::sort` that faults unless the comparison is a strict weak ordering of the range (`PropsSort.lean`) | the comparison is the order `lmsLt` of the stored strings (stage theorem of `sortNames`); the checked sort meets `SortsOK` |
| C82 | `bwtStringR` (`Copy.lean`): the model with a counter of the bytes `realloc` copies, every call moving the block | erasure theorem; every step copies the buffer and enlarges it by 512 to `530 + m` bytes, so the sum is between two quadratic functions of the final size; size from below by the number of different S*-strings of the bad texts of C52 |
| C83 | `bwtStringH`, `bwtFileH` (`HeapModel.lean`, `FileHeap.lean`) | `Frame.lean`: every function is `Framed` (more live blocks change nothing and stay; only requests from now on matter), by structure; the heap is reduced to the text, where C48/C57 exclude the release of dead blocks |
| C84 | a client `COp.execs` that catches exceptions, on the models `bwtStringH` and `bwtFileH` | invariant over the history: live blocks at least those of the initial heap and of the results, with equality while no request failed; from C48, C57, C83 |
| C85 | programs with memory `bwtStringH`, `bwtFileH` against the plain programs `bwtString`, `bwtFile` | a simulation (`Mirrors`) through every function, for all arguments: same value while no request is refused, same error, or a null dereference / `bad_alloc` after a refused request |
| C86 | `QueueObj.lean`: the member functions of `Queue` statement by statement, object and heap survive an exception; a client that catches `bad_alloc` | refinement to `enqueueH`/`enqueueLH`; invariant over the history: contents, blocks owned, blocks leaked |
| C87 | client of C72 on the programs with memory `newTableH`, `insertStringH`, `deleteTableH` | simulation of the history without memory (`Post`), ownership invariant `TabOwn`; only the constructor can throw `bad_alloc` (`NeverBad`) |
| C88 | implicit copy constructors: same members, shared memory (`Queue.sharing`; the same pointers released twice) | representation invariant of the queue after the history: a block exists; after the first destructor no block is live |
| C89 | `PropsLost.lean`: bytes in use at the end of a call with any outcome, of a history with failures | the computation does not depend on the peak of the past (`Framed.blind`), bytes in use ≤ max(before, peak) (`Asks.total`), bound of the peak (C50, C57); invariant of the history |
| C90 | `PropsFileSize.lean`: `bwtFile` of `File.lean`, whose `Host.tell` is any function of the contents | the lemma behind C07 is stated for any reported size; the text transformed is computed from what `fread` delivers and the fresh block |
| C91 | `bwtString` in dirty memory, `Dirty.lean` | the record of the one S* string is stored with length `m + x` (`setLength_last`); every phase is followed on that table (`OneBad`): extraction, the walk, sorting one element, the head record, then `find_name` skips the record and throws; proved violation |
| C92 | `bwtString`, `bwtFile` in dirty memory, `DirtyInduce.lean`, `DirtyHead.lean` | the head record is stored with length `n + 2`; its chain has one more element than the text: every phase followed (`HeadOne`), the first pass of `induce_bwt` as a chain of pushes (`Chain`, `DrainInv`), the second pass does nothing (`PassInv`); proved violation |
| C93 | `bwtString`, `bwtFile` in dirty memory, `DirtyTab.lean`, `DirtyIns.lean`, `DirtyScan.lean`, `Plan.lean`, `DirtyExact.lean`, `PropsExact.lean` | a table some of whose buckets are poisoned (`PTab`: without them it satisfies the table invariant `Tab`; a walk over a poisoned bucket leaves the buffer, `Doom`); every insertion keeps this or faults (`insert_any`), the walk of `sort_LMS_strings` faults (`sort_poison`). Exact condition: which strings open a block is a function of the strings (`Plan.lean`, refinement `TabLay`); the front end is correct in every memory when no new string with a length divisible by 256 opens a block (`NoOpen`, `HtOK.insert`); otherwise the memory that is zero but for the block of the first such string makes the call fault (`DirtyExact.lean`), and so does the head record (`head_dirty`); proved violation |
| C94 | `bwtString`, `bwtFile` in dirty memory; `bwtStringFor k` (`Hang.lean`): the same program with `k` more steps for the walk over the table | a memory with a pointer to itself behind the one record; the state of the walk repeats, hence no number of steps suffices |
| C95 | `bwtString`, `bwtFile`; reference `textbook`, `textbookFile` (`Textbook.lean`) | sorted rotations of the marked string = suffix array (`sortedRotations_eq`); `IsBWT`, `FileFormat` and `IsSuffixArray` are equivalent to the executable references for every string |
| C96 | `bwtFile`, `bwtString`, `writeResult` | `bwtFile` unfolded around `bwtString` for an arbitrary world (`bwtFile_via`), the writing by `writeResult_run`; agreement by C01, C07 and C95 |
| C97 | `bwtString`, `bwtIs`, `induceBwt` and everything below | partial correctness (`Whenever`, `Shape.lean`): every step of the induction keeps the number of rows; no hypothesis |
| C98 | `bwtString`, `bwtFile` | suffix order, S* positions and `IsBWT` are invariant under strictly increasing maps; then C01/C07 for both texts and uniqueness of the transform |

Known deviations of the code from what a user expects (found by reading; to be proved as witnesses):
1. n = 1, 2: null pointer dereference (C04).
2. `set_length` does not write trailing zero bytes: lengths that are multiples of 256 are read back wrongly when the
   fresh memory is not zero (C18); this makes `bwt_string` depend on uninitialised memory.
3. `BIT_MASK(…, 0)` shifts a 64 bit value by 64 (undefined in C++). Modelled as yielding an arbitrary value.
4. `bwp_base = min_ptr - 1` points before the allocation when there is no S* substring (undefined pointer arithmetic, harmless).
5. `bwt_string` requires `T[n]` readable (C36) and not larger than the bytes of the string (C63), undocumented.
6. `HashTable` strings of length 2 are confused with block pointers; length 0 loops for ever (never used so by `bwt_string`).
7. `get_40bit_value` etc. shift a negative value to the left (`(int64_t)U << 32` for the complemented entries), `set_*` shift it to
   the right: undefined resp. implementation defined before C++20. Modelled as two's complement arithmetic.
8. `bwt_file` truncates the output before its last request for memory; when that is refused the old output is lost (C57). A
   crash leaves a prefix of the output; with input = output the data is lost (C58).
9. Row `last` of the result is not a byte of the transform: it is `T[0]+1` for an L-type first byte, else a left-over or
   uninitialised byte (C64).
10. The repository's tests `get_value_8bit` and `set_length_2` read cells that were never written (C65, C18).
11. Depending on the bytes in recycled memory, strings with an LMS-string of a length divisible by 256 (exactly: C93) make `bwt_string` access memory
    out of bounds (C45, C93), throw `runtime_error` (C91), return a wrong result without an error (C92) or run forever (C94).
