{"id": "C01", "title": "bwt_string returns the Burrows-Wheeler transform", "statement": "A good call of bwt_string is one with a byte string of length 3 <= n < 2^57 (README: at most 2^58 bits, i.e. 2^55 bytes), a readable byte at T[n] that is not larger than any byte of the string (a terminating '\\0', for instance), a std::sort that meets its contract, enough memory for the table of LMS-strings, and either zero bytes in freshly reallocated memory or no LMS-string (or leading part before the first) whose length is a multiple of 256 (otherwise see C18, C45, C91, C92). Every good call returns without fault an array of n+1 bytes such that, for every row r other than `last`, BWT[r] is the byte preceding the r-th smallest suffix of the string (suffixes 0..n, the empty suffix being smallest).", "quantifier": "every byte string of length 3..2^57, every content of uninitialised heap memory that is zero where a length byte is left unwritten (see C18), every std::sort implementation meeting its contract", "why_tests_cant": "the output depends on the full order of all suffixes; tests fix one 15 byte string", "anchors": ["src/flbwt.cpp:bwt_string", "src/flbwt.cpp:bwt_is", "src/induce32bit.cpp:induce_bwt_32bit", "src/sais32bit.cpp:sais_32bit"]}
{"id": "C02", "title": "last is the row of the whole string", "statement": "In every good call (C01) the `last` field returned by bwt_string is the rank of the complete input among all n+1 suffixes; it is between 1 and n.", "quantifier": "every byte string of length >= 3", "why_tests_cant": "needs the global suffix order for every input", "anchors": ["src/flbwt.cpp:bwt_string", "src/induce32bit.cpp:induce_bwt_32bit"]}
{"id": "C03", "title": "Invalid arguments are rejected before anything happens", "statement": "bwt_string throws std::invalid_argument exactly when T is NULL or n is 0, whatever the other argument and free_T are.", "quantifier": "every T, n, free_T", "why_tests_cant": "an iff over all argument values", "anchors": ["src/flbwt.cpp:bwt_string"]}
{"id": "C04", "title": "Inputs of one or two bytes", "statement": "A user expects bwt_string to return the transform of every non-empty string. For n = 1 and n = 2 the code dereferences a null hash table pointer instead (property violated; the violation is proved).", "quantifier": "every string of length 1 or 2", "why_tests_cant": "needs all strings of those lengths; no test in the repository covers them", "anchors": ["src/flbwt.cpp:extract_LMS_strings", "src/flbwt.cpp:sort_LMS_strings"]}
{"id": "C05", "title": "The result does not depend on uninitialised memory", "statement": "Two good calls (C01) of bwt_string on equal inputs give equal `last` and equal BWT bytes in every row except `last`, whatever malloc/realloc/new returned as initial contents.", "quantifier": "every input, every pair of initial heap contents", "why_tests_cant": "heap contents cannot be enumerated by tests", "anchors": ["src/flbwt.cpp:bwt_is", "src/packed_array.cpp:PackedArray", "src/hashtable.cpp:insert_string"]}
{"id": "C06", "title": "free_T does not influence the result and T is not read after release", "statement": "bwt_string returns the same result with free_T true and false; no read of T happens after it has been freed and T is never written.", "quantifier": "every input string", "why_tests_cant": "use after free is invisible to value based tests", "anchors": ["src/flbwt.cpp:bwt_is"]}
{"id": "C07", "title": "bwt_file output format", "statement": "For a readable input file with content s (3 <= |s| < 2^57) on a host where ftell, malloc, fread and fwrite work, and memory as in a good call (C01), bwt_file writes exactly 8 bytes holding `last` in big-endian order followed by the n bytes of the BWT with row `last` removed, in all three branches (last == 0, last == n, otherwise).", "quantifier": "every file content", "why_tests_cant": "the branch taken and the split point depend on the input", "anchors": ["src/flbwt.cpp:bwt_file"]}
{"id": "C08", "title": "bwt_file output is lossless", "statement": "From the bytes written by a bwt_file call as in C07 the input can be reconstructed: there is a decoder returning the original content for every file; in particular two different inputs never give the same output.", "quantifier": "every file content of length >= 3", "why_tests_cant": "injectivity relates all pairs of inputs", "anchors": ["src/flbwt.cpp:bwt_file"]}
{"id": "C09", "title": "bwt_file error behaviour", "statement": "bwt_file throws invalid_argument when the input cannot be opened, runtime_error when nothing can be read (e.g. an empty file), in both cases without touching the output file; it throws invalid_argument when the output cannot be opened.", "quantifier": "every file system answer to open/read/open", "why_tests_cant": "all combinations of failures and contents", "anchors": ["src/flbwt.cpp:bwt_file"]}
{"id": "C10", "title": "PackedArray is an array of integers", "statement": "After any sequence of in-range set_value calls with values that fit, get_value(i) returns the value most recently stored at i; a store to i never changes the value read at any other index.", "quantifier": "every width 1..64, every length (total bits < 2^64), every operation history", "why_tests_cant": "word straddling depends on width, index and neighbouring contents jointly", "anchors": ["src/packed_array.cpp:set_value", "src/packed_array.cpp:get_value"]}
{"id": "C11", "title": "PackedArray never touches memory outside its allocation", "statement": "For every index < length, get_value and set_value only access words inside the allocated array.", "quantifier": "every width 1..64, every length with length*bits < 2^64, every index", "why_tests_cant": "boundary cases for every width/length pair", "anchors": ["src/packed_array.cpp:PackedArray", "src/packed_array.cpp:set_value", "src/packed_array.cpp:get_value"]}
{"id": "C12", "title": "PackedArray set/get do not depend on previous contents", "statement": "The value returned after a store is independent of the uninitialised words malloc returned and of the result of the shift by 64 executed by BIT_MASK(…,0) (formally undefined in C++; reachable for every width dividing 64).", "quantifier": "every initial memory contents and every result of the out-of-range shift", "why_tests_cant": "malloc contents not controllable", "anchors": ["src/packed_array.cpp:set_value", "include/packed_array.hpp:BIT_MASK"]}
{"id": "C13", "title": "Queue is a double-ended queue", "statement": "For any history of enqueue / enqueue_l / dequeue (dequeue only when not empty) with values < 2^w, dequeue returns the front element of the abstract sequence, enqueue appends, enqueue_l prepends, and is_empty is true exactly when the abstract sequence is empty.", "quantifier": "every width, every history of any length (so any number of blocks)", "why_tests_cant": "block boundaries are crossed at 1024 elements in combinations of front/back operations", "anchors": ["src/queue.cpp:enqueue", "src/queue.cpp:enqueue_l", "src/queue.cpp:dequeue", "src/queue.cpp:is_empty"]}
{"id": "C14", "title": "Queue operations are memory safe", "statement": "In every such history no operation dereferences a null block or accesses a slot outside a block, and no freed block is accessed.", "quantifier": "every history", "why_tests_cant": "as above", "anchors": ["src/queue.cpp:enqueue", "src/queue.cpp:enqueue_l", "src/queue.cpp:dequeue"]}
{"id": "C15", "title": "insert_string reports exactly the new strings", "statement": "In every history of insert_string calls with strings of length >= 3, the call returns 1 if and only if the string was not inserted before, and 0 otherwise.", "quantifier": "every history of insertions, every table size >= 1, every block size >= 13", "why_tests_cant": "depends on hash collisions, block overflow and the whole history", "anchors": ["src/hashtable.cpp:insert_string", "src/hashtable.cpp:hash_function"]}
{"id": "C16", "title": "find_name returns the name stored for the string and throws otherwise", "statement": "After any history of insertions and after names were stored, find_name(s) returns the name stored for s when s was inserted and throws runtime_error when it was not.", "quantifier": "every history, every table size", "why_tests_cant": "as above; error path depends on whole history", "anchors": ["src/hashtable.cpp:find_name", "src/hashtable.cpp:set_name", "src/hashtable.cpp:get_name"]}
{"id": "C17", "title": "The hash table never leaves its buffer", "statement": "During any history of insert_string / find_name with strings of length >= 3 all reads and writes are inside the allocated buffer.", "quantifier": "every history", "why_tests_cant": "off-by-one in the space accounting only shows for particular fill levels", "anchors": ["src/hashtable.cpp:insert_string", "src/hashtable.cpp:find_name"]}
{"id": "C18", "title": "Length field round trip", "statement": "get_length(set_length(p, l)) = l for every l in 1..2^64-1. Violated: trailing zero bytes of the length are not written, so when l is a multiple of 256 the result depends on what was in memory. Proved: round trip when the bytes were zero or l is not a multiple of 256, and a witness of the violation.", "quantifier": "every length, every previous memory contents", "why_tests_cant": "the unit test passes only because malloc happened to return zeros", "anchors": ["src/hashtable.cpp:set_length", "src/hashtable.cpp:get_length", "src/hashtable.cpp:calculate_lenlen"]}
{"id": "C19", "title": "Pointer and name fields round trip", "statement": "get_pointer(set_pointer(p, x)) = x for every x < 2^64, get_name(set_name(p, x)) = x for every x < 256^NAME_BYTES, and neither call changes bytes outside its field.", "quantifier": "every value and every previous memory contents", "why_tests_cant": "2^64 values", "anchors": ["src/hashtable.cpp:get_pointer", "src/hashtable.cpp:set_pointer", "src/hashtable.cpp:get_name", "src/hashtable.cpp:set_name"]}
{"id": "C20", "title": "extract_LMS_strings counts the S* substrings", "statement": "num_of_substrings is the number of S* (LMS) positions of the input, num_of_unique_substrings the number of different S* substrings, head_string_end the first S* position (n if there is none).", "quantifier": "every byte string of length >= 3", "why_tests_cant": "the S*/L/S classification is a global property of the string", "anchors": ["src/flbwt.cpp:extract_LMS_strings"]}
{"id": "C21", "title": "extract_LMS_strings histograms", "statement": "M, NL and C hold, for every byte value, the number of its occurrences, of its L-type occurrences and of its S* occurrences (plus one entry for the terminator).", "quantifier": "every byte string of length >= 3", "why_tests_cant": "as above", "anchors": ["src/flbwt.cpp:extract_LMS_strings", "src/container.cpp:Container"]}
{"id": "C22", "title": "Names respect the order of S* substrings", "statement": "The names given by sort_LMS_strings are 1..u without gaps, equal exactly for equal S* substrings, and if the name at S* position p is smaller than the name at S* position q then the suffix at p is smaller than the suffix at q.", "quantifier": "every byte string of length >= 3, every std::sort meeting its contract", "why_tests_cant": "compares all pairs of substrings of all inputs", "anchors": ["src/flbwt.cpp:sort_LMS_strings"]}
{"id": "C23", "title": "create_shortened_string builds the name sequence", "statement": "The shortened string holds the head string's name, then the names of the S* substrings in text order, then 0; find_name never throws in it.", "quantifier": "every byte string of length >= 3", "why_tests_cant": "needs every input", "anchors": ["src/flbwt.cpp:create_shortened_string"]}
{"id": "C24", "title": "sais_32bit computes the suffix array", "statement": "For every integer string of length n >= 1 over 0..k-1 stored in a packed array, sais_32bit leaves in SA[0..n) the permutation of 0..n-1 that sorts the suffixes.", "quantifier": "every string, alphabet size, workspace size fs, packed width != 32, n,k < 2^31", "why_tests_cant": "recursive algorithm with workspace aliasing; all strings", "anchors": ["src/sais32bit.cpp:sais_32bit", "src/sais32bit.cpp:induce_SA"]}
{"id": "C25", "title": "sais_40/48/56/64bit compute the same suffix array", "statement": "The 40, 48, 56 and 64 bit versions compute the suffix array for all strings whose length and alphabet fit the signed width, hence all versions agree on every input they share.", "quantifier": "every string within the width", "why_tests_cant": "inputs that need the wide versions have more than 2^31 characters and are not testable", "anchors": ["src/sais40bit.cpp:sais_40bit", "src/sais48bit.cpp:sais_48bit", "src/sais56bit.cpp:sais_56bit", "src/sais64bit.cpp:sais_64bit"]}
{"id": "C26", "title": "Split integers round trip", "statement": "get_40bit_value(set_40bit_value(v)) = v for every v in [-2^39, 2^39), likewise 48 and 56 bits; other indices are unaffected.", "quantifier": "every value of the range, every index", "why_tests_cant": "2^56 values", "anchors": ["include/sais40bit.hpp:set_40bit_value", "include/sais48bit.hpp:set_48bit_value", "include/sais56bit.hpp:set_56bit_value"]}
{"id": "C27", "title": "Suffix sorting stays inside its memory", "statement": "sais_* reads and writes only SA[0..n+fs) and the counters it allocated, at every recursion level, and leaves everything beyond SA[n+fs) and the input string unchanged.", "quantifier": "every string, k, fs", "why_tests_cant": "aliasing of counters, names and the reduced string inside SA depends on sizes", "anchors": ["src/sais32bit.cpp:sais_32bit", "src/sais32bit.cpp:get_counts", "src/sais32bit.cpp:get_buckets"]}
{"id": "C28", "title": "Suffix sorting terminates", "statement": "sais_* terminates on every input: every nested recursive call, at any depth, is on a nonempty string of less than half the length of the string of the call it is nested in, so there are at most floor(log2 n)+1 levels.", "quantifier": "every string", "why_tests_cant": "termination for all inputs", "anchors": ["src/sais32bit.cpp:sais_32bit"]}
{"id": "C29", "title": "Width selection is sound", "statement": "bwt_string selects an integer width in which every suffix array entry and every buffer offset stored fits without wrap-around, and the packed text width never coincides with the selector value (32/40/48/56/64) that makes sais_* reinterpret the packed text.", "quantifier": "every input up to 2^57 bytes", "why_tests_cant": "the wide branches need inputs of more than 2^31 bytes", "anchors": ["src/flbwt.cpp:bwt_is", "include/utility.hpp:position_of_msb"]}
{"id": "C30", "title": "position_of_msb", "statement": "For every non-zero 64 bit n, position_of_msb(n) is the number b with 2^(b-1) <= n < 2^b.", "quantifier": "every n in 1..2^64-1", "why_tests_cant": "2^64 values", "anchors": ["include/utility.hpp:position_of_msb"]}
{"id": "C31", "title": "hash_function is a function of the bytes and in range", "statement": "hash_function(m,p) < HTSIZE, depends only on the m bytes at p, and equals sum of p[i]*101^(m-1-i) mod 2^64 mod HTSIZE.", "quantifier": "every string and every table size >= 1", "why_tests_cant": "all strings", "anchors": ["src/hashtable.cpp:hash_function"]}
{"id": "C32", "title": "BWT is a permutation of the input bytes", "statement": "In every good call (C01) the multiset of the BWT bytes without row `last` equals the multiset of the input bytes.", "quantifier": "every byte string of length >= 3", "why_tests_cant": "all inputs", "anchors": ["src/flbwt.cpp:bwt_string"]}
{"id": "C33", "title": "All induce_bwt_* variants give the same result", "statement": "induce_bwt_32bit, _40bit, _48bit, _56bit and _64bit return the same BWT and last for the same pointer sequence.", "quantifier": "every container and pointer sequence produced by bwt_string", "why_tests_cant": "the wide variants are never run on feasible inputs", "anchors": ["src/induce40bit.cpp:induce_bwt_40bit", "src/induce48bit.cpp:induce_bwt_48bit", "src/induce56bit.cpp:induce_bwt_56bit", "src/induce64bit.cpp:induce_bwt_64bit"]}
{"id": "C34", "title": "Inducing the BWT is memory safe", "statement": "In every good call (C01) induce_bwt_* only accesses BWT[0..n], bucket arrays 0..257 and bytes inside the hash table buffer; no queue is dequeued when empty and `last` is always assigned.", "quantifier": "every byte string of length >= 3", "why_tests_cant": "all inputs", "anchors": ["src/induce32bit.cpp:induce_bwt_32bit"]}
{"id": "C35", "title": "Every call terminates", "statement": "Every call of bwt_string with n < 2^57 terminates: with no text or n = 0 it throws invalid_argument, with n = 1 or 2 it dereferences NULL, with a block of at most n bytes it reads out of bounds, and with n >= 3 and a block of more than n bytes it returns, whatever the block contains and whatever byte follows the text (under the assumptions of C01 about std::sort, realloc and stored lengths).", "quantifier": "every pointer, length < 2^57, block size, text and following byte", "why_tests_cant": "termination for all inputs", "anchors": ["src/flbwt.cpp:bwt_is", "src/hashtable.cpp:insert_string", "src/hashtable.cpp:set_length"]}
{"id": "C36", "title": "T[n] is read: the terminator is part of the contract", "statement": "bwt_string reads T[n]; if the buffer has n bytes or fewer the call reads out of bounds, for every n >= 3 (documented nowhere).", "quantifier": "every buffer of at most n bytes", "why_tests_cant": "out of bounds reads do not show in values", "anchors": ["src/flbwt.cpp:extract_LMS_strings"]}
{"id": "C37", "title": "bwt_file changes no file but its output", "statement": "Whatever the outcome of bwt_file (normal return, exception or crash), every file other than the output file keeps its contents.", "quantifier": "every file system state, every answer of the host (open, ftell, malloc, fread, fwrite), every heap contents", "why_tests_cant": "would need all failure combinations of the operating system", "anchors": ["src/flbwt.cpp:bwt_file"]}
{"id": "C38", "title": "Non-seekable input", "statement": "A user expects bwt_file on a pipe to work or to throw. When ftell returns -1 the code allocates n+1 = 0 bytes and fread writes the first byte outside the block (violated; violation proved). No file is touched.", "quantifier": "every non-empty content, every host on which ftell returns -1 and malloc(0) succeeds", "why_tests_cant": "depends on malloc(0) and on the size of the pipe contents", "anchors": ["src/flbwt.cpp:bwt_file"]}
{"id": "C39", "title": "Short reads are not detected", "statement": "A user expects an exception when the file cannot be read completely. If fread delivers only k of n bytes (1 <= k < n) bwt_file returns normally and the output decodes to the first k bytes followed by n-k bytes of old heap memory (violated; violation proved).", "quantifier": "every content, every k, every heap contents", "why_tests_cant": "requires I/O errors at every position", "anchors": ["src/flbwt.cpp:bwt_file"]}
{"id": "C40", "title": "A full disk is not detected", "statement": "A user expects an exception when the output cannot be written. On a host that stores at most `room` bytes bwt_file returns normally leaving exactly the first `room` bytes of the output (violated; violation proved).", "quantifier": "every content, every room", "why_tests_cant": "requires I/O errors at every position", "anchors": ["src/flbwt.cpp:bwt_file"]}
{"id": "C41", "title": "bwt_file and its resources", "statement": "A normal return leaves no stream open and none of bwt_file's blocks allocated. On a read failure the input stream and the text block leak, on an output failure the two blocks of the result leak (these two are proved violations of what a user expects).", "quantifier": "every host answer", "why_tests_cant": "leaks are not observable in the existing unit tests and must hold on every error path", "anchors": ["src/flbwt.cpp:bwt_file"]}
{"id": "C42", "title": "bwt_file on files of one or two bytes", "statement": "A user expects every non-empty file to be transformed; for 1 or 2 bytes the call dereferences a null pointer and leaves the output file untouched (violated; violation proved).", "quantifier": "every content of length 1 or 2", "why_tests_cant": "all 65792 contents times all memory states", "anchors": ["src/flbwt.cpp:bwt_file"]}
{"id": "C43", "title": "Example program", "statement": "examples/bwt.cpp exits with 0 after writing the transform when given two arguments and a good file, and exits with -1 touching nothing for any other number of arguments.", "quantifier": "every argument list, every host, every content >= 3 bytes", "why_tests_cant": "every content", "anchors": ["examples/bwt.cpp:main"]}
{"id": "C44", "title": "The hash table buffer is linear in the input", "statement": "After any history of insert_string / find_name calls the buffer has at most 512 bytes per bucket plus 2*length+48 bytes per different inserted string; in a call of bwt_string on n bytes it never exceeds 27*n + 34701855 bytes.", "quantifier": "every history, every table size; every input of bwt_string", "why_tests_cant": "the bound is amortised over all histories: a test sees one history", "anchors": ["src/hashtable.cpp:insert_string", "src/flbwt.cpp:extract_LMS_strings", "src/flbwt.cpp:sort_LMS_strings"]}
{"id": "C45", "title": "Head strings of length 256k and the state of the heap", "statement": "A user expects bwt_string to succeed whatever the heap contained before. When the prefix of the input up to and including its first S* position (the whole input with its terminator if there is none) has a length that is a multiple of 256 - e.g. 255 equal bytes - and the recycled bytes returned by realloc are 13 or more, bwt_string writes outside the hash table buffer; with zeroed memory the same call returns the transform (violated; violation proved).", "quantifier": "every string with such a prefix and no S* string of a length divisible by 256; every environment with fresh bytes >= 13; in particular all runs of 256k-1 equal bytes", "why_tests_cant": "a test runs with one heap state, usually zeroed pages, and sees the correct result", "anchors": ["src/hashtable.cpp:set_length", "src/flbwt.cpp:sort_LMS_strings", "src/flbwt.cpp:bwt_string"]}
{"id": "C46", "title": "Running out of memory for the table: same result or a null dereference, with an exact threshold", "statement": "When the heap cannot provide the memory that the table of LMS-strings asks for, bwt_string never returns a different transform and never throws: for every call whatsoever, lowering the amount of memory available leaves the outcome unchanged or turns it into a dereference of a null pointer (the result of realloc is not checked). For every valid string there is one exact number B of bytes, the final size of the table and at most 27 n + 34701855, such that the call succeeds whenever a block of B bytes can be obtained and crashes whenever it cannot.", "quantifier": "every text, length, heap content and pair of memory limits; every valid call for the threshold", "why_tests_cant": "allocation failure can strike at every growth of the table and the threshold depends on the whole text; a test would have to force each of them", "anchors": ["src/hashtable.cpp:HashTable::insert_string", "src/hashtable.cpp:HashTable::extend", "src/flbwt.cpp:sort_LMS_strings", "src/flbwt.cpp:extract_LMS_strings"]}
{"id": "C47", "title": "bwt_string leaks nothing", "statement": "When memory does not run out, after bwt_string returns exactly two blocks have been added to the heap, the transform of n+1 bytes and the result structure; every other block the call obtained (table, buffer, arrays, packed words, queues, queue blocks, container) has been released exactly once and with the operator that matches its request (free, delete or delete[]), and T has been released exactly when free_T is true. A caller that then does delete[] on the array and free on the structure is back at the heap it started with.", "quantifier": "every valid string, environment and initial heap, both values of free_T", "why_tests_cant": "which blocks are obtained (queue blocks, table growth, counters, recursion of the suffix sorter) depends on the whole input; a leak checker sees one input", "anchors": ["src/flbwt.cpp:bwt_is", "src/flbwt.cpp:bwt_string", "src/queue.cpp:Queue", "src/hashtable.cpp:HashTable", "src/container.cpp:~Container", "src/induce32bit.cpp:induce_bwt_32bit", "src/sais32bit.cpp:sais_32bit"]}
{"id": "C48", "title": "Memory running out at any request", "statement": "Whatever requests for memory are refused, bwt_string either returns exactly what it returns with unlimited memory (then no request was refused and the heap is as in C47), or a request was refused and the call ends by std::bad_alloc or by dereferencing the null pointer returned by malloc/realloc. It never returns a different transform and never releases a block that is not live (no double free). Calls rejected for a null pointer or length 0 do not touch the heap.", "quantifier": "every schedule of refused requests, every valid string, every initial heap", "why_tests_cant": "the number of requests depends on the input and each of them can fail: tests would have to inject a failure at every request of every input", "anchors": ["src/flbwt.cpp:bwt_is", "src/flbwt.cpp:bwt_string", "src/queue.cpp:Queue", "src/hashtable.cpp:HashTable", "src/container.cpp:~Container", "src/induce32bit.cpp:induce_bwt_32bit", "src/sais32bit.cpp:sais_32bit"]}
{"id": "C49", "title": "Ownership of T", "statement": "With free_T = false the caller still owns T after the call, whatever request fails; with free_T = true a call that returns has released T exactly once and no other block of the caller. A caller would expect to know who owns T after std::bad_alloc; with free_T = true it cannot: for every valid string there are failures after which T is live and failures after which T was released, reported by the same exception (violated; violation proved).", "quantifier": "every valid string, every schedule of refused requests, every initial heap", "why_tests_cant": "depends on which request fails relative to the release of T", "anchors": ["src/flbwt.cpp:bwt_is", "src/flbwt.cpp:bwt_string", "include/flbwt.hpp:bwt_string"]}
{"id": "C50", "title": "Memory use is linear in the input", "statement": "A call of bwt_string never has more than 58*n + 70600000 bytes in use beyond what was in use before the call, including the transient copy while the table is reallocated, and also when the call fails because a request for memory is refused.", "quantifier": "every valid string, every initial heap, every schedule of refused requests", "why_tests_cant": "a bound over all inputs: the peak depends on the number of LMS-substrings, their lengths, the recursion of the suffix sorter and the queue lengths", "anchors": ["src/flbwt.cpp:bwt_is", "src/flbwt.cpp:bwt_string", "src/queue.cpp:Queue", "src/hashtable.cpp:HashTable", "src/container.cpp:~Container", "src/induce32bit.cpp:induce_bwt_32bit", "src/sais32bit.cpp:sais_32bit"]}
{"id": "C51", "title": "A failed call gives its memory back", "statement": "A caller that catches std::bad_alloc expects that the failed call has released what it obtained. It does not: unless the very first request is refused (then nothing is leaked), every call that fails for lack of memory leaves the container of 12472 bytes (and whatever else it had obtained) on the heap; for every valid string such a std::bad_alloc exists (violated; violation proved).", "quantifier": "every valid string, every schedule of refused requests, every initial heap", "why_tests_cant": "needs a failure at each request of each input", "anchors": ["src/flbwt.cpp:bwt_is", "src/flbwt.cpp:extract_LMS_strings", "src/container.cpp:~Container"]}
{"id": "C52", "title": "The searches in the table of LMS-strings are quadratic in the worst case", "statement": "The README presents the algorithm as linear time, but the table of LMS-strings keeps colliding strings in one unsorted chain of a table whose size (67777) does not grow: for every k up to 2^49 there is a string of 67(k+2) bytes, without zero bytes, for which bwt_string, whatever the heap contains, walks past at least k(k-1)/2 colliding records while it extracts the LMS-strings (the public counter HashTable::collisions ends at that value or more). So no constant c up to 2^40 bounds the work of the extraction by c times the length of the text.", "quantifier": "every k up to 2^49 (every constant up to 2^40); for the string that exists: every content of the heap, every block that holds the string, every implementation of std::sort", "why_tests_cant": "a timing test shows one text; that the work per byte exceeds every constant needs a family of texts of unbounded length together with a count of the records visited in every execution", "anchors": ["src/hashtable.cpp:HashTable::insert_string", "include/hashtable.hpp:HashTable::collisions", "src/flbwt.cpp:extract_LMS_strings", "README.md"]}
{"id": "C53", "title": "Running time of bwt_string: linear outside the hash-table searches, at most quadratic in total", "statement": "For every string of n >= 3 bytes that bwt_string accepts, the call makes at most 62*n + 276865 loop iterations outside the chain searches of the hash table and the library calls, and at most 62*n + 276865 + 6*n*n with the searches. The quadratic bound is reached: for every k there is a string of 67*(k+2) bytes on which at least k*(k-1)/2 iterations are made. Counting does not change the result of any call.", "quantifier": "all strings of any length, all memory contents and allocation behaviours, all correct sorts, both values of free_T; for the lower bound all k up to 2^49", "why_tests_cant": "A running time measured on samples says nothing about the worst case over all strings; the bound is a statement about every input length.", "anchors": ["src/flbwt.cpp:bwt_string", "src/flbwt.cpp:bwt_is", "src/hashtable.cpp:insert_string", "src/hashtable.cpp:find_name", "src/sais32bit.cpp:sais_32bit"]}
{"id": "C54", "title": "The suffix sorters run in linear time", "statement": "sais_32bit, sais_40bit, sais_48bit, sais_56bit and sais_64bit, called on a text of n characters from 0..k-1 with any workspace size fs, make at most 56*n + 12*k loop iterations, summed over all levels of the recursion, and compute the suffix array.", "quantifier": "all non-empty texts and alphabets that fit the width, all workspace sizes, all initial contents of memory", "why_tests_cant": "Tests time a few texts; the bound needs an amortised argument for the naming and compaction loops and an induction over the recursion, for every text.", "anchors": ["src/sais32bit.cpp:sais_32bit", "src/sais40bit.cpp:sais_40bit", "src/sais48bit.cpp:sais_48bit", "src/sais56bit.cpp:sais_56bit", "src/sais64bit.cpp:sais_64bit"]}
{"id": "C55", "title": "No value is truncated", "statement": "In every call of bwt_string on 3 <= n < 2^57 bytes, and in every call of sais_{32,40,48,56,64}bit whose text length is below 2^(w-1) and whose alphabet size is at most 2^(w-1), every value written to the suffix array, to the bucket arrays inside or outside it, and by the increment and pointer conversion of the result, fits the signed w-bit entry it is written to.", "quantifier": "all texts, all five widths, all workspaces, all contents of memory", "why_tests_cant": "The dangerous sizes are 2^31, 2^39, 2^47, 2^55 bytes and more; no test has such inputs.", "anchors": ["src/flbwt.cpp:bwt_is", "src/sais32bit.cpp:sais_32bit", "src/sais40bit.cpp:sais_40bit", "src/sais48bit.cpp:sais_48bit", "src/sais56bit.cpp:sais_56bit", "src/sais64bit.cpp:sais_64bit"]}
{"id": "C56", "title": "No pointer into a released buffer", "statement": "The byte buffer of the hash table is moved by realloc whenever a block is added and once more before the strings are sorted. bwt_string and HashTable::insert_string never read or write through a pointer into a buffer that realloc has released, and never compare or subtract pointers into different buffers.", "quantifier": "all arguments (also invalid ones), all tables and strings, all contents of memory, every std::sort", "why_tests_cant": "A stale pointer is only visible when realloc moves the block, which depends on the state of the heap and the number of strings.", "anchors": ["src/hashtable.cpp:HashTable::insert_string", "src/flbwt.cpp:sort_LMS_strings", "src/flbwt.cpp:bwt_is"]}
{"id": "C57", "title": "bwt_file when memory runs out", "statement": "bwt_file on a readable file of 3 <= n < 2^57 bytes, when any malloc, realloc or new may be refused: it returns normally with the complete output file, all other files, the streams and the heap as before; or a request made before the output file is opened was refused, it ends by std::runtime_error (exactly when the text buffer was refused), std::bad_alloc or a null dereference, no file has changed and no stream is left open; or the 8 byte array for the row number was refused, and it ends by std::bad_alloc with the output file emptied, its stream open and the result leaked. The last case exists for every input. If the output cannot be opened the call ends by std::invalid_argument and the result is leaked. Whatever the outcome, the call never has more than 59 n + 70600001 bytes in use.", "quantifier": "all file contents, all schedules of refused requests, all initial heaps and file systems", "why_tests_cant": "The number of requests grows with the input and any subset of them may be refused; tests do not inject allocation failures.", "anchors": ["src/flbwt.cpp:bwt_file", "src/flbwt.cpp:bwt_string"]}
{"id": "C58", "title": "bwt_file when the machine crashes", "statement": "Whatever happens during a call of bwt_file (crash at any moment, any request for memory refused), the file system is as before the call or only the output file differs and holds a prefix of the complete output. Every prefix, the empty one included, can be left behind, so with the same name for input and output a crash loses the data. A proper prefix never decodes to the contents of the input.", "quantifier": "all moments of a call, all file contents, all schedules of refused requests; for the claim about other files all hosts and inputs", "why_tests_cant": "There is one crash point per byte written; tests do not crash the machine.", "anchors": ["src/flbwt.cpp:bwt_file"]}
{"id": "C59", "title": "dequeue on an empty queue", "statement": "Queue::dequeue does not detect an empty queue. After any history of enqueue, enqueue_l and dequeue calls that leaves the queue empty, one more dequeue dereferences a null pointer exactly if the number of enqueue calls so far is a multiple of 1024 (for example on a new queue); otherwise it returns the contents of a slot, which can be any uninitialised value, and from then on is_empty answers false although nothing was added; and the next enqueue makes is_empty answer true although an element has just been added.", "quantifier": "every width, every content of fresh memory, every history (unbounded length) that leaves the queue empty", "why_tests_cant": "which of the two behaviours occurs depends on the whole history and on uninitialised memory; a test sees one of them", "anchors": ["src/queue.cpp: Queue::dequeue, Queue::is_empty", "include/queue.hpp"]}
{"id": "C60", "title": "Storing a value too large for its cell", "statement": "PackedArray::set_value does not check that the value fits. For every value and every index in range it does not fault; the cell then reads as the value modulo 2^bits; no cell with a higher index changes; a cell with a lower index can only gain bits, and only if it shares a 64-bit word with the start of the written cell. The corruption is real for every width below 64: if cell i+1 does not begin at a word boundary, storing a value with bit number `bits` set there makes the value at index i odd.", "quantifier": "every length, width, previous history of stores, index and 64-bit value", "why_tests_cant": "the damage depends on the alignment of the cell and on bits of the value beyond the width; there are 2^64 values per cell and infinitely many layouts", "anchors": ["src/packed_array.cpp: PackedArray::set_value, PackedArray::get_value", "include/packed_array.hpp"]}
{"id": "C61", "title": "Strings of length 0 and 2 in the hash table", "statement": "HashTable::insert_string must not be used with strings of length 0 or 2, and does not check it. After any history of insertions and searches, inserting an empty string never returns. On a new table a two-byte string is accepted as new, after which every insert_string and find_name for any string with the same hash value (for example the same string again) reads outside the buffer.", "quantifier": "every table size, every history, every two-byte string, every later string with the same hash, every content of fresh memory", "why_tests_cant": "the failing access depends on the bytes of the string and the hash of later strings; a non-terminating call cannot be observed by a test", "anchors": ["src/hashtable.cpp: insert_string, find_name, calculate_lenlen, set_length, get_pointer"]}
{"id": "C62", "title": "Histories of calls", "statement": "A client may call bwt_string any number of times, with or without free_T, keep any number of results for any time and release them in any order (delete[] for the array, free for the structure). While memory does not run out, no action of such a history faults or throws, every result held is the transform of its text, and the heap is the initial heap plus exactly the two blocks of each result still held; when everything has been released the heap is exactly the initial one.", "quantifier": "every history of good calls and releases, every initial heap, every content of fresh memory for each call", "why_tests_cant": "a leak or a double release may need a particular order of calls and releases; the number of histories is infinite", "anchors": ["src/flbwt.cpp: bwt_string, bwt_is, bwt_file", "include/flbwt.hpp"]}
{"id": "C63", "title": "What the byte after the string may be", "statement": "bwt_string gives the transform whenever the byte T[n] after the string is not larger than any byte of the string, and the result does not depend on which such byte it is (nor on whether it is 0). For an arbitrary byte after the string the first three stages still succeed and name the S* strings in lexicographic order of the strings including that byte; if the byte is larger than bytes of the string this order can differ from the order of the suffixes (\"babab\" followed by 'c').", "quantifier": "every string of length 3..2^57, every byte after it, every pair of calls on the same string with different bytes after it", "why_tests_cant": "tests use zero terminated literals only; the byte after the string is not part of the argument list and no test varies it", "anchors": ["src/flbwt.cpp:extract_LMS_strings", "src/flbwt.cpp:LMS_comparison", "include/flbwt.hpp:bwt_string"]}
{"id": "C64", "title": "What row `last` of the returned array holds", "statement": "bwt_string leaves row `last` of the array without a defined meaning. If the string is larger than its own tail, the row holds the first byte plus one modulo 256. Otherwise, with k the number of S type suffixes that start with the first byte and are smaller than the string: if there are more than k S* positions with that byte, the row holds the byte before the k-th smallest of them, and else it holds whatever the freshly allocated memory contained. Hence the complete array is the same in every run exactly in the first two cases; in the third it can differ between two calls on the same string (uninitialised memory is returned).", "quantifier": "every byte string of length 3 … 2^57-1, every content of fresh memory, every std::sort, both values of free_T", "why_tests_cant": "the repository's own test compares BWT[last] with a literal; whether this is reproducible depends on the string and on the heap, so no finite set of runs can settle it", "anchors": ["src/induce32bit.cpp:induce_bwt_32bit", "src/flbwt.cpp:sort_LMS_strings", "test/flbwt_test.cpp"]}
{"id": "C65", "title": "PackedArray: raw layout; cells never stored to are uninitialised", "statement": "After any history of in-range set_value calls with fitting values, the array behind get_raw_arr_pointer has floor(length*bits/64)+1 words; cell i occupies bits bits*i … bits*i+bits-1, counted from the most significant bit of word 0; each of these bits is that of the value stored last in the cell, and every bit of a cell never stored to is that of the fresh memory. In particular get_value of a cell never stored to can return any value that fits (it is not 0).", "quantifier": "every width 1 … 64, every length, every history of stores, every content of fresh memory", "why_tests_cant": "ranges over all widths, histories and heap contents; the repository's tests check a few literals, one of which (get_value_8bit, cell 8) expects 0 in a cell never stored to", "anchors": ["src/packed_array.cpp:PackedArray::set_value", "src/packed_array.cpp:PackedArray::get_value", "include/packed_array.hpp:get_raw_arr_pointer", "test/packed_array_test.cpp"]}
{"id": "C66", "title": "bwt_string is reentrant: concurrent calls do not influence each other", "statement": "Any number of threads may call bwt_string at the same time, on texts of their own or on shared texts nobody releases. Under every interleaving and every pattern of refused memory requests each call returns the transform of its own string, or was itself refused a request and ends with bad_alloc or a null dereference; no call releases a block it does not own or touches a text that is gone; no call waits for another and every schedule ends; when all calls have returned, exactly the results are left on the heap. If a text that one call is to free is also passed to another call, some interleaving reads it after its release.", "quantifier": "every number of threads, every tuple of valid calls, every interleaving, every pattern of refused requests", "why_tests_cant": "schedules are chosen by the operating system; the number of interleavings is astronomical", "anchors": ["src/flbwt.cpp:bwt_string", "src/flbwt.cpp:bwt_is", "src/flbwt.cpp:extract_LMS_strings", "src/queue.cpp:Queue", "src/container.cpp:Container"]}
{"id": "C67", "title": "Memory needed by concurrent calls adds up", "statement": "With an allocator that has room for the sum over the calls of 58*n + 70600000 bytes (plus the text, if the call is to free it), no request of any of several concurrent calls of bwt_string is refused, whatever the interleaving; all calls succeed.", "quantifier": "every number of threads, every tuple of valid calls, every interleaving", "why_tests_cant": "the worst moment for memory depends on the schedule", "anchors": ["src/flbwt.cpp:bwt_string", "src/hashtable.cpp:insert_string", "src/queue.cpp:enqueue"]}
{"id": "C68", "title": "bwt_file calls running at the same time do not disturb each other", "statement": "Several calls of bwt_file (from threads or from processes) run at the same time, their file system actions interleaved arbitrarily with each other and with other programs that leave their files alone. If no call's output file is the output or the input of another call (inputs may be shared, a call may work in place), then every call that has returned has left in its output file exactly the format of the contents its input had; a call that failed threw invalid_argument or runtime_error because something was refused, and its output is untouched; at every moment each output is what it was or a prefix of the right file; no call waits for another, each does at most 2n+12 actions, and all can finish. The condition is needed: with a common output there is a schedule after which both calls have returned normally and the file is right for neither; with the output of one call as input of another there is a schedule in which that one fails although nothing was refused.", "quantifier": "every number of calls, all contents, every interleaving of their actions byte by byte, every pattern of refused fopen and malloc requests, every moment", "why_tests_cant": "the number of interleavings is exponential in the lengths of the files", "anchors": ["src/flbwt.cpp:bwt_file", "examples/bwt.cpp:main"]}
{"id": "C69", "title": "PackedArray and Queue constructors accept arguments no later call can honour", "statement": "PackedArray(length, bits) and Queue(bits) check neither argument. With bits = 0 every set_value and get_value, at any index, and the first enqueue or enqueue_l shift a 64 bit word by 64 bits (undefined behaviour). With bits above 64 (the parameter type allows up to 255), whatever was stored before, the store to and the read of cell 63/(bits-64), one of the first 64, shift by 64 or more, and a queue does so before 64 values have been enqueued. With length*bits at or above 2^64 (bits 1 to 64) the size computation wraps, and unless the wrapped number of bits is within 128 of 2^64 (an allocation of about 2^61 bytes) there is an index below length at which every store and every read is outside the memory obtained.", "quantifier": "every length, width, index, value, memory contents and earlier sequence of stores; every list of at least 64 enqueued values", "why_tests_cant": "the constructor succeeds for every argument; which cell misbehaves depends on the width, and the wrapped case needs 2^64 bits; a test sees whatever the hardware does with the shift", "anchors": ["src/packed_array.cpp:PackedArray", "src/packed_array.cpp:set_value", "src/packed_array.cpp:get_value", "src/queue.cpp:Queue", "src/queue.cpp:enqueue", "src/queue.cpp:enqueue_l"]}
{"id": "C70", "title": "The suffix sorters on an integer array", "statement": "Each sais_XXbit called with cs = XX and the text in an array of XX bit integers (T resp. TA_L/TA_M/TA_U) leaves in SA[0..n) the permutation that sorts the suffixes, writes nothing behind SA[n+fs), and makes at most 56n+12k loop iterations; the result is the same array that any of the five sorters computes from the packed form of the same string.", "quantifier": "every non-empty string over 0..k-1 with n < 2^(XX-1), k <= 2^(XX-1), every workspace size fs, every contents of memory, all five widths", "why_tests_cant": "this entry point is exercised by bwt_string only inside the recursion; a test can try some strings", "anchors": ["src/sais32bit.cpp:sais_32bit", "src/sais40bit.cpp:sais_40bit", "src/sais48bit.cpp:sais_48bit", "src/sais56bit.cpp:sais_56bit", "src/sais64bit.cpp:sais_64bit"]}
{"id": "C71", "title": "The suffix sorters do not accept the empty string", "statement": "Each of the five sorters called with n = 0 and fs = 0 (an array SA without entries) accesses memory it must not, whatever the text argument, the alphabet size and the contents of memory: there is no guard for the empty string.", "quantifier": "every width, alphabet size, text argument, contents of memory", "why_tests_cant": "an out-of-bounds write of one entry usually goes unnoticed; that no argument combination avoids it is a universal claim", "anchors": ["src/sais32bit.cpp:sais_32bit", "src/sais32bit.cpp:induce_SA"]}
{"id": "C72", "title": "The hash table is a map from strings to names under every interleaving of calls", "statement": "For every table size and every sequence of insert_string, set_name (on the record of a string) and find_name calls, in any order: insert_string returns 1 exactly for strings not stored yet and never changes the name of a stored string; find_name returns the name stored last for the string, however many insertions (with growth of the buffer) and set_name calls on other strings happened in between, and throws std::runtime_error exactly for strings that are not stored; no call leaves the buffer.", "quantifier": "all table sizes, all histories of the three calls in any order, all strings of at least 3 bytes (length no multiple of 256 unless fresh memory is zero), all contents of fresh memory", "why_tests_cant": "The state depends on the whole history: hash collisions, block chains and buffer growth between a set_name and the find_name that reads it.", "anchors": ["src/hashtable.cpp:insert_string", "src/hashtable.cpp:set_name", "src/hashtable.cpp:find_name"]}
{"id": "C73", "title": "Records have the documented layout and do not overlap", "statement": "After every history of calls the record of each stored string has the layout documented in hashtable.hpp (number of length bytes without leading zero bytes, length most significant byte first, sentinel = first character + 1, characters, name bytes); get_lenlen, get_length, get_first_character_pointer and string_info_length return exactly the number of length bytes, the length, the position of the first character and the number of bytes the record occupies; all records lie in the buffer behind offset 0 and no two records overlap.", "quantifier": "all histories of insert_string / set_name / find_name calls, all stored strings, all pairs of records", "why_tests_cant": "The placement of a record depends on all strings inserted before and on where blocks were started; disjointness is a statement about all pairs.", "anchors": ["include/hashtable.hpp", "src/hashtable.cpp:insert_string", "src/hashtable.cpp:string_info_length", "src/hashtable.cpp:get_first_character_pointer", "src/hashtable.cpp:get_lenlen"]}
{"id": "C74", "title": "A hash table needs at least one slot", "statement": "HashTable(0, n) can be constructed, but every insert_string and every find_name on it divides by zero, for every string; with one slot the first insertion of every string succeeds.", "quantifier": "all n, all strings", "why_tests_cant": "The claim is about every string, and the failing calls are undefined behaviour, which a test cannot observe reliably.", "anchors": ["src/hashtable.cpp:hash_function", "src/hashtable.cpp:HashTable::HashTable"]}
{"id": "C75", "title": "bwt_file when the transform fails", "statement": "If bwt_string fails on the contents of the file, in whatever way, bwt_file fails the same way and no file has been touched (an older output is still there). In particular: a file of 256k-1 equal bytes with fresh heap bytes of 13 or more makes bwt_file write outside a block; and for every file there is an amount B <= 27n+34701855 of table memory such that the output is written if a block of B bytes can be had and otherwise a null pointer is dereferenced with no file touched.", "quantifier": "all contents, all ways bwt_string can fail, all amounts of memory, all k and byte values, all contents of fresh memory of 13 or more", "why_tests_cant": "Depends on the state of the heap and on the exact amount of memory available, which tests do not control.", "anchors": ["src/flbwt.cpp:bwt_file", "src/flbwt.cpp:sort_LMS_strings", "src/hashtable.cpp:set_length"]}
{"id": "C76", "title": "The alphabet size given to the suffix sorters must bound every character", "statement": "If a text given to sais_32bit, sais_40bit, sais_48bit, sais_56bit or sais_64bit (packed, or as an array of the sorter's own integers) of fewer than 2^(w-1) characters contains one that is k or larger, and the workspace fs is smaller than k, the call accesses memory out of bounds: k is a precondition, not a hint, and no value of the array, the text or memory makes such a call harmless.", "quantifier": "every non-conforming text of any length, every k, every fs below k, every contents of the suffix array and of fresh memory, all five widths, both forms of the text", "why_tests_cant": "An out-of-bounds counter access usually goes unnoticed in a test run; that it happens for every such text whatever memory holds is a statement about all of them.", "anchors": ["src/sais32bit.cpp:get_counts", "src/sais32bit.cpp:sais_32bit", "src/sais40bit.cpp:sais_40bit", "src/sais64bit.cpp:sais_64bit"]}
{"id": "C77", "title": "Histories of bwt_file calls: in place, on outputs of earlier calls, overwriting inputs", "statement": "Any finite sequence of bwt_file calls on any file names, where input and output may coincide, outputs may be transformed again and inputs may be overwritten, on a machine where nothing fails and fresh memory is zero: every call returns as long as its input exists with 3 <= n < 2^57 bytes; at the end each file has the size and the origin given by a table that records only names, sizes and how often a file was transformed; decoding a file that often gives exactly the contents its origin had at the beginning; streams and blocks are as before. In particular k in-place transforms add 8k bytes and are undone by k decodings.", "quantifier": "all finite sequences of calls, all file names and contents, all (per call) hosts and memories without failures", "why_tests_cant": "Sequences of calls are unbounded in length and in the ways files are reused; a test covers one.", "anchors": ["src/flbwt.cpp:bwt_file"]}
{"id": "C78", "title": "Whatever byte follows the string, bwt_string is memory-safe and deterministic, but the transform may be wrong", "statement": "bwt_string(T, n, free_T) reads T[n] and does not check it. Whatever that byte is, the call on a string of 3 <= n < 2^57 bytes with enough memory returns normally: no access out of bounds, no exception, an array of n+1 entries, last in 1..n, and in the entries other than last exactly the bytes of the string in some order (the foreign byte T[n] never enters the result). The result is a function of the string and the byte T[n] alone, not of the state of memory, of the implementation of std::sort or of the bytes after T[n]. It need not be the transform: on \"babab\" followed by 'c' the call returns last = 4, while the rank of the whole string is 5. Its use of memory does not depend on that byte either: wherever memory runs out, it returns what it returns with unlimited memory and adds exactly the result to the heap, or a request was refused and it throws bad_alloc or dereferences a null pointer.", "quantifier": "all strings of 3 <= n < 2^57 bytes, all values of the byte after the string, all states of the memory, all implementations of std::sort that sort; the violation for every run on the given input", "why_tests_cant": "the repository's tests pass C strings whose terminating byte is 0; that a call with another byte stays in bounds depends on an argument about bucket sizes that holds for every order of the rows, not on particular inputs", "anchors": ["src/flbwt.cpp:bwt_string", "src/flbwt.cpp:bwt_is", "src/flbwt.cpp:extract_LMS_strings", "src/flbwt.cpp:create_shortened_string", "src/induce32bit.cpp:induce_bwt_32bit"]}
{"id": "C79", "title": "bwt_string is lossless", "statement": "From the returned array, last and the length the string can be rebuilt, whatever byte row last holds; two successful calls return the same size, the same last and the same bytes in all rows but last if and only if their strings are equal.", "quantifier": "all strings of 3 to 2^57-1 bytes, all contents of uninitialised memory, both values of free_T; pairs of such calls", "why_tests_cant": "losslessness quantifies over all strings and, for injectivity, over all pairs of strings", "anchors": ["src/flbwt.cpp: bwt_string, bwt_is", "include/flbwt.hpp: BWT_result"]}
{"id": "C80", "title": "The result is an index: backward search works on it", "statement": "Running backward search (as in an FM-index) with the returned array and last, never looking at row last, finds for every pattern exactly the rows of the suffixes that begin with it; the number of these rows is the number of occurrences of the pattern in the string. The same holds for the array and last read back from the file bwt_file writes.", "quantifier": "all strings of 3 to 2^57-1 bytes, all patterns (the empty one and those with characters not in the string included), all contents of uninitialised memory", "why_tests_cant": "quantifies over all strings and all patterns", "anchors": ["src/flbwt.cpp: bwt_string, bwt_file", "include/flbwt.hpp: BWT_result"]}
{"id": "C81", "title": "std::sort is called within its contract", "statement": "The comparison of records that the library hands to std::sort is, on the records that are sorted, total (it returns for any two of them, without reading outside memory) and a strict weak ordering: irreflexive, transitive, with transitive equivalence. A bwt_string call whose std::sort treats any violation of this precondition as undefined behaviour still ends normally, with the transform if the byte after the string is not larger than its bytes, and without fault whatever that byte is.", "quantifier": "all strings of 3 to 2^57-1 bytes, all bytes after the string, all contents of uninitialised memory in which the length fields are safe, all correct implementations of std::sort", "why_tests_cant": "a violated precondition of std::sort shows only on some inputs and with some implementations; transitivity ranges over all triples of records", "anchors": ["src/flbwt.cpp: sort_LMS_strings, the comparison lambda", "src/hashtable.cpp: get_length, get_first_character_pointer"]}
{"id": "C82", "title": "Cost of enlarging the table buffer", "statement": "If every call of realloc moves the block, a call of bwt_string on n bytes copies at most (27*n + 34702336)^2/1024 bytes inside realloc, and it still returns the transform. The bound is quadratic for a reason: for every k there is a string of 67*(k+2) bytes for which at least 4*k*k bytes are copied, so that no constant bounds the copied bytes per input byte.", "quantifier": "upper bound: all strings of 3 to 2^57-1 bytes, all contents of fresh memory, all sorting functions; lower bound: all k up to 2^49 and all constants up to 2^40", "why_tests_cant": "the number of calls and the sizes copied depend on the input; a test measures one input with one allocator", "anchors": ["src/hashtable.cpp: insert_string", "src/flbwt.cpp: extract_LMS_strings, sort_LMS_strings"]}
{"id": "C83", "title": "Memory of the caller is left alone wherever memory runs out", "statement": "Wherever memory runs out, and whatever the outcome, a call of bwt_string releases no block that was live before the call except the text, and that only if free_T was passed; a call of bwt_file releases none. The outcome and the number of requests do not depend on what else is on the heap. A call fails for lack of memory only if one of its own requests was refused: whatever happened before, if memory is available from now on the call returns the transform and adds exactly the two blocks of the result.", "quantifier": "all good calls, all initial heaps, all schedules of refused requests; the frame property also for calls outside the documented conditions", "why_tests_cant": "a wrong release on one of the failure paths corrupts an unrelated block of the caller; it needs a particular refused request and a particular heap to be visible", "anchors": ["src/flbwt.cpp: bwt_is, bwt_string, bwt_file", "src/hashtable.cpp: HashTable, insert_string, ~HashTable", "src/queue.cpp: enqueue, dequeue, ~Queue", "src/sais32bit.cpp: sais_32bit"]}
{"id": "C84", "title": "Histories in which memory runs out", "statement": "A client calls bwt_string and bwt_file again and again, keeps results, releases results in any order, catches every exception and goes on. While no null pointer is dereferenced, however many calls fail, nothing is released twice, every result it holds is the transform of its text, every bwt_file that returned had written the file of its input, and all blocks of the client and of the results held are live. Memory is lost only if a request failed or an output file could not be opened; otherwise the heap is the initial one plus two blocks per result held. As soon as memory is available again calls succeed.", "quantifier": "all histories of good calls and releases of any length, all initial states, all schedules of refused requests, any contents of fresh memory for each call", "why_tests_cant": "histories and points of failure are unbounded; the effect of a failed call on later calls shows only in particular combinations", "anchors": ["src/flbwt.cpp: bwt_file, bwt_string, bwt_is"]}
{"id": "C85", "title": "Memory pressure never changes what a call computes", "statement": "Whatever the arguments are - valid or not - and at whatever point memory runs out: a call of bwt_string or bwt_file that returns did exactly what it does with unlimited memory (same result, same files), and no request was refused to it. A call that ends by an exception or a fault does what it does with unlimited memory, or a request was refused to it and it dereferenced a null pointer (bwt_file: or threw runtime_error). bad_alloc is thrown only after a refused request. In particular two calls with the same arguments that both return return the same.", "quantifier": "all texts, lengths, terminating bytes, states of the heap, schedules of refused requests, contents of fresh memory; all files and behaviours of the host for bwt_file; no precondition", "why_tests_cant": "a test cannot try every point at which memory can run out, nor every invalid argument", "anchors": ["src/flbwt.cpp: bwt_file, bwt_string, bwt_is", "src/sais32bit.cpp (and 40, 48, 56, 64): sais_32bit", "src/induce32bit.cpp (and 40, 48, 56, 64)", "src/container.cpp", "src/hashtable.cpp"]}
{"id": "C86", "title": "Queue survives bad_alloc", "statement": "A program that creates a Queue of width 1..64, performs any operations on it, catches std::bad_alloc and goes on, and finally destroys it, sees a double-ended sequence in which an operation that threw changed nothing, not even a member of the object; is_empty tells the truth at every moment; an operation throws only if a memory request was refused; the destructor never faults and releases every block of the queue. What stays allocated is at most one 24-byte qblock per operation that threw - exactly one if the qblock itself was granted, so the leak is unbounded. The only other outcome, after a refused malloc, is a null dereference.", "quantifier": "all widths, histories of enqueue/enqueue_l/dequeue, values fitting the width, contents of fresh memory, initial heaps and schedules of refused requests", "why_tests_cant": "the point at which memory runs out is not under the control of a test, and there are unboundedly many histories", "anchors": ["src/queue.cpp: Queue::enqueue, Queue::enqueue_l, Queue::dequeue, Queue::~Queue", "src/packed_array.cpp: PackedArray::PackedArray"]}
{"id": "C87", "title": "The life of a HashTable when memory runs out", "statement": "A program creates a HashTable with at least one slot, performs any history of insert_string, set_name and find_name, and deletes it, while memory can be refused at any moment. If it reaches the end, the results are those of a finite map, exactly the memory requested was released, no request was refused, and at no moment were more than 16*slots+64 bytes plus twice the bytes of the records (530 + length per insertion) in use. It fails only after a refused request: the constructor throws bad_alloc, having released everything or everything but one array of 8*slots bytes (this leak happens); once the table exists nothing throws bad_alloc - a refused request ends in a null dereference.", "quantifier": "all table sizes >= 1, all histories of the three calls (strings of at least 3 bytes, length no multiple of 256 unless fresh memory is zero), all contents of fresh memory, all initial heaps and schedules of refused requests", "why_tests_cant": "the request that is refused is not under the control of a test, and histories are unbounded", "anchors": ["src/hashtable.cpp: HashTable::HashTable, HashTable::insert_string, HashTable::~HashTable"]}
{"id": "C88", "title": "Queue, PackedArray and HashTable objects must not be copied", "statement": "The classes own memory but have the implicit copy constructor. After any history that leaves elements in a Queue, if the queue is copied and one of the two objects is destroyed, the other one still answers is_empty() == false, but dequeue and its destructor access released memory. Destroying a PackedArray and its copy, or a HashTable (after any history) and its copy, releases the same block twice.", "quantifier": "all widths, histories of queue operations, contents of fresh memory; all lengths and widths of packed arrays; all table sizes and histories of calls", "why_tests_cant": "undefined behaviour need not be visible in a test; the claim is about every history", "anchors": ["include/queue.hpp: Queue", "include/packed_array.hpp: PackedArray", "include/hashtable.hpp: HashTable", "src/queue.cpp: Queue::~Queue", "src/packed_array.cpp: PackedArray::~PackedArray", "src/hashtable.cpp: HashTable::~HashTable"]}
{"id": "C89", "title": "How much memory failed calls can cost a process", "statement": "Whatever the outcome of a call of bwt_string (n bytes, 3 <= n < 2^57) and wherever memory runs out, at its end at most 58 n + 70600000 bytes more are in use than at its beginning (bwt_file: 59 n + 70600001); a call that returns adds exactly the n + 17 bytes of the result (bwt_file: nothing). In every history of calls and releases by a client that catches exceptions, with texts of at most N bytes, the bytes in use at the end are at most those at the beginning, those of the results held and 59 N + 70600001 per refused request. The losses do add up: if the suffix array is refused k times, k containers of 12472 bytes are lost.", "quantifier": "all texts and files, all contents of fresh memory, all schedules of refused requests, all histories of calls, all numbers of attempts", "why_tests_cant": "The bound must hold for every request at which memory can run out, in every history; tests try a few failures.", "anchors": ["src/flbwt.cpp:bwt_string", "src/flbwt.cpp:bwt_file", "src/flbwt.cpp:bwt_is", "src/hashtable.cpp:HashTable", "src/queue.cpp:enqueue"]}
{"id": "C90", "title": "bwt_file trusts the size it was told", "statement": "bwt_file asks for the size n of the input once and reads afterwards. Whatever the file holds by then (3 <= n < 2^57, at least one byte arrives), the call returns normally and the output is the format of a string of exactly n bytes: the k bytes that arrived, then n-k bytes of old heap memory; no other file changes. So a file that grows in between yields the transform of its part at the time of the size query; a file that is truncated in between yields an output that decodes to something longer than the file and contains old memory of the process (violated expectation; violation proved). A readable file whose size is reported as 0 gives runtime_error and leaks the stream and one block, a size of 1 or 2 dereferences the null pointer.", "quantifier": "all sizes reported, all contents at the time of reading, all heap contents, all read limits", "why_tests_cant": "The change must happen between two library calls, with every pair of sizes and every state of the heap.", "anchors": ["src/flbwt.cpp:bwt_file"]}
{"id": "C91", "title": "Valid strings rejected with an exception, depending on the heap", "statement": "A user expects bwt_string to accept every string of at least three bytes. When the text has exactly one S* position and the substring from there to the terminator (both included) has a length that is a multiple of 256 but not of 65536 - e.g. \"ba\" followed by 254 times \"c\" - and the recycled bytes returned by realloc are between 1 and 11, bwt_string throws runtime_error because find_name does not find the string insert_string stored; with zeroed memory the same call returns the transform (violated; violation proved).", "quantifier": "every string of 3 to 2^57 - 1 bytes with such a single S* position whose head string length is not a multiple of 256; every environment with fresh bytes 1..11 and enough memory; every correct std::sort; in particular all strings b a c...c with a < b, a < c of length 256k, k not a multiple of 256", "why_tests_cant": "a test runs with one heap state, usually zeroed pages, and sees the correct result; the failing lengths are one in 256", "anchors": ["src/hashtable.cpp:set_length", "src/hashtable.cpp:insert_string", "src/hashtable.cpp:find_name", "src/flbwt.cpp:create_shortened_string", "src/flbwt.cpp:bwt_string"]}
{"id": "C92", "title": "Silently wrong transform, depending on the heap", "statement": "A user expects that what bwt_string and bwt_file deliver without an error is right. For a text whose bytes never increase, followed by a strictly smaller byte (e.g. a C string of equal bytes), of a length n with n+1 a multiple of 256 but not of 65536, when the recycled bytes returned by realloc are 1, bwt_string returns normally, last is n and every row is right except row 0, which holds the byte after the text instead of the last byte of the text; this is the transform of no string with these bytes. bwt_file writes such a result without an error: contents that differ only in their last byte give the same output, so the input cannot be recovered. With zeroed memory the calls give the transform (violated; violation proved).", "quantifier": "every such text of 255 to 2^57 - 1 bytes; every environment whose fresh realloc bytes are 1 and with enough memory; every correct std::sort; files: every host that reads and writes completely", "why_tests_cant": "a test runs with one heap state, usually zeroed pages, and sees the correct result; the failing lengths are one in 256 and no error is reported", "anchors": ["src/hashtable.cpp:set_length", "src/flbwt.cpp:sort_LMS_strings", "src/induce32bit.cpp:induce_bwt_32bit", "src/flbwt.cpp:bwt_string", "src/flbwt.cpp:bwt_file"]}
{"id": "C93", "title": "Exactly which texts depend on the heap", "statement": "A user expects bwt_string to succeed whatever the heap contained before. It does not. Exactly: the S* substrings of the text are inserted into a table from right to left; a string whose record does not fit into what is left of the last block of its hash bucket opens a new block. For every text of 3 to 2^57-1 bytes, bwt_string returns the transform in every environment (every contents of recycled memory, every std::sort that sorts, enough memory) if and only if no new string of a length that is a multiple of 256 opens a block and the length of the head string is not a multiple of 256; which strings open blocks is a function of the text alone. For every other text there is a memory in which the call accesses memory it does not own. bwt_file: the output file is produced in every environment under exactly the same condition on the contents. Moreover, whenever some S* substring has a length that is a multiple of 256 and is the last one or at least 512 bytes long (and none has a length that is a multiple of 65536), and the recycled bytes returned by realloc are any values between 13 and 241 (text left in the heap, or the pattern of a debugging malloc), bwt_string does not return: it accesses memory outside its table (or the null pointer when realloc is refused); bwt_file ends the same way and leaves all files as they are (violated; violation proved, with the exact condition).", "quantifier": "every text of 3 to 2^57 - 1 bytes, with any number of S* substrings in any buckets of the table; all contents of fresh memory; every behaviour of std::sort; files: every host that reads the file completely", "why_tests_cant": "a test runs with one heap state, usually zeroed pages; the failing texts are a small fraction and the failure depends on hash collisions and the order in which the buckets are walked", "anchors": ["src/hashtable.cpp:set_length", "src/hashtable.cpp:insert_string", "src/flbwt.cpp:extract_LMS_strings", "src/flbwt.cpp:sort_LMS_strings", "src/flbwt.cpp:bwt_string", "src/flbwt.cpp:bwt_file"]}
{"id": "C94", "title": "A call that never ends, depending on the heap", "statement": "A user expects bwt_string and bwt_file to end. For every text with exactly one S* position whose S* substring (up to and including the terminator) has a length that is a multiple of 256 - e.g. \"ba\" followed by 254 times \"c\" - there are contents of the memory returned by realloc with which the call never ends: the walk over the hash table leaves the record at bytes that were never written and that look like a pointer to themselves. This does not depend on std::sort, on the other contents of memory or on the byte after the text; with zeroed memory the same call returns the transform. bwt_file does not end either and has changed no file by then (violated; violation proved). For calls that return, the bound the model puts on the steps of the walk does not matter.", "quantifier": "all texts of 3 to 2^57-1 bytes with one S* position whose substring length is a multiple of 256, all byte values after the text, all implementations of std::sort, all contents of the other memory, any number of steps of the loop", "why_tests_cant": "Non-termination cannot be observed by a test, and the memory contents needed are not under the control of a test.", "anchors": ["src/hashtable.cpp: HashTable::set_length, HashTable::insert_string", "src/flbwt.cpp: sort_LMS_strings, bwt_string, bwt_file"]}
{"id": "C95", "title": "The result is the textbook transform", "statement": "The transform is the one of the textbooks, computed by a reference that anybody can run: append an end marker smaller than every byte, list all rotations, sort them lexicographically, take the last column. bwt_string returns exactly this column (n+1 rows; the marker stands in row last and only there), and bwt_file writes exactly: the row of the marker as 8 bytes, most significant first, then the column without the marker.", "quantifier": "all strings and files of 3 to 2^57-1 bytes accepted by C01/C07, all byte values, all contents of fresh memory (LengthsSafe), all implementations of std::sort, both values of free_T", "why_tests_cant": "A comparison with a reference implementation covers the inputs that were run; here the equality with the reference is proved for every input.", "anchors": ["src/flbwt.cpp: bwt_string, bwt_file", "include/flbwt.hpp: BWT_result", "README.md"]}
{"id": "C96", "title": "The two entry points agree", "statement": "bwt_file is bwt_string between reading and writing. Whatever bwt_string does with the bytes of the file (a 0 behind them), bwt_file does: if bwt_string fails, bwt_file fails in the same way and has touched no file; if it returns an array and a row number in it, the output file is the row number in 8 bytes, then the rows before that row, then the rows behind it, and no other file changes; if the output cannot be opened the result is lost (std::invalid_argument) and no file changes. On accepted input the row number and rows do not depend on which entry point, machine state, sort routine or buffer was used.", "quantifier": "first part: every file of 1 to 2^63-1 bytes that is read completely and an output that takes all bytes, every content of fresh memory, every sort routine, every memory limit (no assumption on the text); second part: every accepted file, two independent worlds, all buffers holding the same bytes, both values of free_T", "why_tests_cant": "The equality must hold for every input and memory state, including those on which the call fails; comparing both entry points on test files covers only those files.", "anchors": ["src/flbwt.cpp: bwt_file, bwt_string", "include/flbwt.hpp"]}
{"id": "C97", "title": "The shape of any result", "statement": "Without any assumption: if bwt_string returns, then the pointer it got was not null and the length was at least 3, the caller's text has been released exactly if free_T was set, and an array that was returned has exactly n+1 rows. bwt_file writes nothing for files of one or two bytes.", "quantifier": "every pointer, buffer, length, content of fresh memory, sort routine (also one that does not sort), memory limit, and both values of free_T", "why_tests_cant": "It ranges over broken sort routines, memory contents and buffers that no test harness produces.", "anchors": ["src/flbwt.cpp: bwt_string, bwt_is, bwt_file, sort_LMS_strings", "src/induce32bit.cpp: induce_bwt_32bit (and 40, 48, 56, 64)"]}
{"id": "C98", "title": "Only the order of the characters counts", "statement": "Recode the text by a table that keeps the order of its characters (bytes to bytes). The recoded text is accepted in exactly the circumstances in which the text is, the row of the text stays the same, and every other row of the array bwt_string returns is the recoded row; in the file bwt_file writes the first 8 bytes stay and every later byte is recoded.", "quantifier": "all accepted strings and files, all tables strictly increasing on the characters that occur, all buffers, both values of free_T; for files two independent worlds and hosts", "why_tests_cant": "It relates pairs of runs for every text and every order-preserving table; a metamorphic test samples a few.", "anchors": ["src/flbwt.cpp: bwt_string, bwt_file, lms_string_compare_function, extract_LMS_strings", "src/induce32bit.cpp: induce_bwt_32bit (and 40, 48, 56, 64)"]}
