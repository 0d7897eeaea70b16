# Formal model of cybozulib

Source: `/repo` (herumi/cybozulib, pinned commit), headers under `include/cybozu/`.
Prover: Lean 4.33.0.  The code was read as text; nothing was built or run.

## Layout

| directory | content |
|---|---|
| `lean/Verif/Model/*.lean` | model of the C++ code, one definition per function; each definition cites file and lines |
| `lean/Verif/Spec/*.lean` | small specifications written independently of the model |
| `lean/Verif/Proof/*.lean` | helper lemmas, invariants, simulation relations |
| `lean/Verif/Props/*.lean` | the property theorems, each with `example`s that meet its hypotheses, and `#print axioms` |

## Trusted base

* Lean's kernel.
* Axioms: at most `propext`, `Classical.choice`, `Quot.sound` (printed by `#print axioms` at the end of every `Props` file).
  No axiom is added, no `sorry`, no `native_decide`, no `bv_decide`.
* The transcription of the C++ into Lean (the `Model` files).  What is modelled and what is left out is listed per property below.
* The meaning given to C++ primitives: fixed-width unsigned arithmetic is modulo 2^n; `char` is a byte; `memcpy`, `std::string`,
  `std::vector`, `std::map` have their standard meaning; an access outside an object is a distinct outcome (`none`/`.ub`), not a value.
* Not modelled anywhere: memory allocation failure, the C++ optimizer, the operating system (its answers are universally quantified
  parameters), OpenSSL, zlib's deflate, the rounding of floating point numbers (C69 and C70 compute
  with real numbers).

## Per property: model, method, what is left out

Ids refer to `properties.jsonl`; `MANIFEST.json` lists the theorems. "Partial" means that the full claim is false in the code (see
Findings) or was proved on a restricted domain only; the theorem then has the suffix `_partial` and its comment says what is missing.

| id | model (`Model/`) | how it is proved | not modelled / restrictions |
|---|---|---|---|
| C01-C03 | `Base64`: three-state encoder with column counter and 4096-byte buffer, four-state decoder with 1024-byte buffer, both fed by arbitrary fragments | invariant relating the machine after consuming `x` to the RFC 4648 text of `x` (`Spec/Base64`); round trip by composition | none |
| C04, C06 | `Itoa`: digit loops over a bounded buffer, all `itoa*` entry points | induction on the number of digits; spec is value and canonical form of a numeral (`Spec/Numeral`) | `itoa(unsigned long)` on platforms with 32-bit `long` |
| C05, C07 | `Atoi`: scanning loops with overflow tests, over the readable memory | induction on the text; spec is a grammar plus a range | - |
| C08 | `BitOp`, `Select8` | bit by bit; intrinsics by their documented meaning, 32-bit fallbacks modelled | - |
| C09 | `Endian`: both implementations over byte lists | arithmetic of positional values | - |
| C10, C11, C58 | `BitVector`: words plus bit length, `SetBlockBit`, `ShiftLeftBit` | refinement to `List Bool` along every history | self-append (dangling reference) |
| C12, C13 | `SucVector`, `Select8`: blocks, packed counters, select table, binary search | counts in `List Bool`; invariants of the tables; binary search by induction | - |
| C14, C15 | `Wavelet`: stable partition level by level | induction over the levels, with C12 for each level | sequences of 2^32 elements or more |
| C16, C17 | `FMindex` on top of `Wavelet` and `Frequency` | backward search as a theory of suffix arrays; any sorter that returns a suffix array, and `saisxx` itself (C90) in the `_sorted` theorems | rebuilt objects, long texts, full alphabets (findings) |
| C18 | `CSucVector` | dictionary codes as bit strings; every code table | - |
| C19-C21 | `Serializer`: all types as a universe of descriptions | induction on the type description | `unordered_map` order is a parameter |
| C22 | `Stream`: `readSome` answers arbitrary fragments | induction on the fragments | - |
| C23 | `LineStream` | simulation of the buffer by the remaining bytes; spec splits at LF | - |
| C24 | `Csv` | automaton per field, then rows | - |
| C25, C26 | `Config` (`std::map` as ordered association list) | induction on lines; grammar as an inductive relation | typed getters |
| C27, C28, C59 | `MiniXml` | recursive descent against an inductive tree; document order by induction | stack depth |
| C29-C31 | `StringOp` | induction on the text | locale |
| C32 | `Frequency`: both table kinds | any result of the sort that is an ordered permutation | `put` |
| C33, C34 | `Time` | Gregorian calendar as specification; digit fields | `strftime`/`gmtime` of the platform |
| C35, C36 | `Option`: conversions and the parse loop | the reading of a command line as a unique decomposition | help text, positions of output |
| C37, C38 | `Utf` | case analysis on the tables, induction on strings | - |
| C39-C41 | `Sha` | streaming state against FIPS 180-4; constants of the specification computed from primes | OpenSSL branch |
| C42, C43 | `Hash` | block loop against the definition | - |
| C44-C46 | `Random` | linear maps with left inverses; the published recurrences as separate reference sequences; Hull-Dobell for the PCG by induction on the modulus; shuffle as composition of swaps | `RandomGenerator` (see C92) |
| C47 | `Array`: heap of allocations | histories over any number of objects against plain lists | allocation failure, alignment |
| C48 | `Event`: threads as a transition system with mutex and condition variable, spurious wake-ups included | invariant; liveness under strong fairness | (other versions: C102) |
| C49 | `Parallel`: threads started one after the other, joined at the end | invariant and rank function over all schedules | exceptions that are not `std::exception` |
| C50 | `TopScore` | table as the best entries of the history | NaN scores |
| C51, C52 | `Sparse`: both representations | histories; merge loops by induction | `save`/`load`, `merge` |
| C53 | `Gzip` | parser against the RFC grammar | zlib itself |
| C54 | `PartialIO` | system calls answer anything allowed | Windows |
| C55 | `Handle`: objects, threads and handles as a transition system | "every handle is at exactly one place" | descriptor reuse by the kernel |
| C56 | `FileName` | induction on the name | - |
| C57 | `TfIdf` | histories | floating point values |
| C60 | `IndexIO` on top of the index models and `Serializer` | loaders as chains that read back one saved part each; the loaded object is equal up to members no query reads; type ranges preserved by `init` | structures of plain bytes are written as their little-endian memory |
| C61, C62 | `UString`: reading position and partial results kept at exceptions; objects in a store so that arguments may alias | decomposition of the text; monotonicity of the UTF-8 form byte by byte | iterators into the own string |
| C63 | `Process`: parent and child after `fork` as programs over descriptor tables, steps for every outcome of a system call; `maxFd` is any number | invariants over all interleavings, a decreasing measure, progress | failing `pipe`, `fork`; other threads forking at the same time; the zombie left by `waitpid(.., WNOHANG)` |
| C64 | `Process.watch`: the child as the kernel sees it | induction over the calls | two objects for one process |
| C65 | `Process.cmdLine`; the rules of the C runtime are the specification | induction with the run of backslashes as state; a length argument for the converse | wide characters |
| C66 | the step functions of `Random` (xorshift.hpp) | the steps are linear over GF(2); a polynomial of degree 128 that annihilates them, and for each prime divisor of 2^128-1 a power that is not the identity, are computed in the kernel (`decide +kernel`); the largest prime divisor is proved prime by Lucas' criterion | - |
| C67 | `Zlib`: the loops around `deflate` and `inflate`; zlib is a parameter with its documented promises as hypotheses (`Spec/Zlib`) | ghost input and output of the zlib state; lexicographic measure for the writing loop, bytes left for the reading loop | output streams that fail, reads of 0 bytes; a toy codec shows that the promises can be met (`Proof/ZlibToy`) |
| C68 | `CondVar`: semaphore, counter, event and mutex as shared state, threads as program counters | invariant by counting threads at each place; rank function for `notifyAll` | pthread branch (plain library calls), recursive locking, failing waits; memory model is sequentially consistent |
| C69 | `Plsi`: the maps, the matrix and all loops over lists of real numbers; an operation without a real result stops the model | closed form of the loops; Gibbs' and Jensen's inequalities for expectation maximisation; C50 for the ranking | rounding, overflow and underflow of `double`; keys outside of `int`; `dump` |
| C70 | `NlpRandom`: XorShift of C44 with the result as a real number | bounds on the integer | the rounding of the last product and sum; that the values look normally distributed |
| C71 | `TestRun`: `AutoRun`, the macros; a test function is a tree of checks, prints, accesses to the program's state, ending in return or exception | induction over the trees and the list of tests | texts of the printed lines, tests that register tests while running |
| C72 | `Log`: `Logger`, `PutLog`, `Log` with a set of open files | invariant over all sequences of actions | threads, Windows, the text of the time stamp |
| C73 | `Svd`: `InitUnitMatrix`, `CompressCol`, `OrthonormalizeMatrix`, `ComputeSVD` over the reals; `JacobiSVD` is any function that gives a decomposition | Gram-Schmidt invariant over the passes; projections and the Frobenius norm | rounding of floating point numbers; `Load`, `Save`; the random start matrix (not compiled) |
| C74 | `V128`: registers as `BitVec 128`, intrinsics as in Intel's manual, memory of 32-bit words | bit by bit | wrappers of a single intrinsic; `shrBit`/`shlBit` do not compile (no `operator\|`), modelled with `por` |
| C75 | `Json`: `Value` with pointers into a table of cells, allocation that may fail, places reached by paths | refinement of a memory-free meaning (trees); ownership invariant over footprints | growth of vectors (elements are kept, not copied), `swap` of places other than variables, the getters |
| C76 | `Mmap`: constructor and destructor on Linux and Windows as the list of calls for given answers | the calls are accepted by an automaton of open handles and mappings and lead back to the start | contents of the mapping (the system's), `size_t` of 32 bits |
| C77 | `Ssl`: `ClientSocket` over a connection with unknown answers and OpenSSL's rules for repetition; `connect`, `close`, destructor as lists of calls | invariants over the rounds of the loops, termination under fairness; automaton of calls | engine and context objects, handshake, Windows |
| C78 | `Crypto`: `Hash`, `Hmac`, `Cipher` over OpenSSL as a parameter; ownership of the context | induction over the calls with the bytes seen so far; ownership invariant | the branch for old OpenSSL; ciphertexts themselves |
| C79 | `SocketAddr`: the union as 28 bytes, resolver and `inet_ntop` as parameters | equality of hosts as 16 bytes | what the resolver answers |
| C80 | `SocketSetup`: `connect`, `bind`, `accept`, `queryAccept`, `waitForClose`, time limits, `setLinger` for given answers | case analysis against separate conditions | epoll (C104) and Windows branches; `setLinger` as stated is false (finding) |
| C81 | `Model/Exception`: `Exc` with its two texts, `makeString`, `ErrorNo` text, `wstr2str` | induction over the calls; texts read back from the right | the texts of numbers (`std::ostringstream`) and `strerror` are parameters; Windows messages not covered |
| C82 | `Model/Exception`: `symLine`, `toString` without bfd | search for `(` and `+` by position; addresses read back | `backtrace_symbols` and `__cxa_demangle` are parameters; the bfd variant is not covered |
| C83 | `Model/SysUtil`: `Clk`, `bench` | induction over intervals modulo 2^64; loop invariant | whether `rdtsc` counts time |
| C84 | `Model/SysUtil`: `sleepReq`, `threadBegin` | induction over interruptions; all cases | the kernel's side of `nanosleep` is a hypothesis (asked minus left is slept) |
| C85 | `Model/SysUtil`: `Keys`, `TlsState` | invariant against an abstract map (object, thread) to value | copied objects (finding) |
| C86 | `Model/SysUtil`: `queryEnv`, `format`, `Quit` | all cases; invariant over steps of constructors and signals | Windows values of 4096 bytes and more (finding, so partial) |
| C87 | `Model/FileOps`: `verifyMode`, `FileObj` with `open`, `close`, `sync`, `destroy`, `life` | automaton holding at most one descriptor, induction over the calls | false if `fdatasync` fails in the destructor or the constructor cannot seek (findings, so partial); Windows |
| C88 | `Model/FileOps`: `FS` of files and descriptors, `openFile`, `write`, `readSome`, `seek` | induction over writes and reads; bytes after an overlay by position | short transfers and errors (C54 for the loops); links, other processes, disk full |
| C89 | `Model/FileOps`: `fileLoop`, `getFileList`, `doesFileExist`, `renameFile`, `getExePath` | induction over the entries; C56 for names | an error of `readdir` is taken as the end; Windows, macOS |
| C90 | `Model/Sais`: all of `sais.hxx` for `saisxx`, one definition per loop, arrays with checked accesses | ranks in the induced order by two invariants per pass; order of the reduced text equals the order of the suffixes; induction over the recursion; frame | OpenMP; `int` overflow beyond 2^31 - 1 (values stay within n) |
| C91 | `Model/Sais`: `computeBWT`, `saisxx_bwt` | simulation of `induceSA` by `computeBWT` (a cell holds the character instead of the position once it is passed); the row of the previous position as a function of the column gives injectivity | the conversion `(char_type)` of values that are characters anyway; `U` and `T` as the same array |
| C92 | `Model/RandGen`: constructor, `read` (both platforms), `get32`, `get64`; the device is a stream of bytes with a point of failure | case analysis of the conversions `size_t` → `int` → `size_t`; induction over the calls | requests of 2^31 bytes and more (findings); the quality of the random numbers; buffering inside `FILE` |
| C93 | `Model/Mecab`: `parse`, `set`, `isEnd`, `next`, `isNoun`, life of the tagger; MeCab's answers are parameters | induction over the pieces of the text | MeCab itself; what the text of a given dictionary looks like |
| C94 | `Model/RegexChar`: the mask table and all functions of the facet, `value`, the table of class names | the table is compared with the C locale for each of its 256 places, all other characters by the test of the high bits; induction for the scans | the regular expression engines (Boost, Visual C++); the masks `_Ch_blank` and `_Ch_graph` of Visual C++ |
| C95 | `Model/Atomic`: the three functions for both platforms (`__sync_*`, `_Interlocked*` with their argument orders); threads with programs of calls, retry loops and a spin lock | invariants over the interleavings (the sum of the cell and of the outstanding additions; the chain of exchanged values; at most one owner) | sequential consistency is assumed; `mfence`; the choice of the intrinsic by `sizeof(T)` (sizes other than 4 and 8 do not compile) |
| C96 | `Model/AutoLock`: `lock` and `unlock` (recursive on Windows, not on Linux), `AutoLockT` as constructor and destructor around a block, unwinding, `try`, non-atomic updates; any scheduler | invariant: the guards on a thread's stack are what it has locked; deadlock freedom by the thread that waits for the largest mutex; termination by the length of the programs | the operating system's mutexes (assumed); memory is sequentially consistent; fairness; `MutexLockTimeout` |
| C97 | `Model/ConfigGet`: `ResultType::get`, `getValue` with and without default, `getSection`, on the models of `Config` and `atoi` | the theorems about `atoi` (C05, C06) and about printing and loading (C25) are put together | values that are the minimum followed by more (finding, from C05); the life time of the references that `getValue` returns; texts of exceptions |
| C98 | `Model/SparseIO`: `set`, `norm`, `save`, `load`, on the models of the tables and of the serializer | the pairs written are those that iteration gives (C51); reading them back repeats the pushes, each of which was accepted before; the serializer's round trip (C20, C21) for the values | memory: `reserve` throws above an arbitrary limit; 2^30 - 1 entries or more; what the destination holds after an exception |
| C99 | `Model/OptionMsg`: `getBaseName`, `isSet`, `usage`, `shortUsage`, `operator<<`, `setDescription`, `setUsage`, the implicit copy constructor; on top of `Model/Option` | invariant over the declarations (`Texts`), `parse` keeps it (`parse_texts`), and C36 gives the flags; texts by infix lemmas; `LastPart` and its uniqueness | texts with a NUL byte; that copies share the variables with the original |
| C100 | `Model/SvdText`: `LoadHeader`, `LoadMatrix`, `LoadSparseMatrix`, `LoadVector`, `SaveMatrix`, `SaveSparseMatrix`, `SaveVector`, and extraction of characters and `int`s from a stream; reading and printing of floating-point numbers is a parameter (`NumIO`) | round trips by induction over the rows and entries (`lineLoop_rows`, `rowLoop_entries`); any file by invariants of the loops (`lineLoop_inv`) and progress of the stream (`rowLoop_total`) | which floating-point numbers survive `setprecision(8)` (hypothesis `Readable`); messages on stderr; failing writes; memory for a huge header |
| C101 | `Model/TfIdfTerm`: `Df::term` with `partial_sort` as a relation, `operator<<`, `loadKeywordFile` on the bytes of the file; on top of `Model/TfIdf` | the invariant of C57 gives the numbers; injectivity of ids; the file by induction over the lines; then C57 for the loaded object | rounding of `size * rate` (parameter `cut`), texts of numbers (parameter), messages |
| C102 | `Model/EventPipe`: threads as a transition system over the bytes of the pipe, signals (`EINTR`) included; the Windows version with an atomic auto-reset event | refinement of a counter (`count`) and of the flag of C48; liveness under strong fairness | constructor failures, destructor, the kernel's pipe and event objects |
| C103 | `Model/Tls`: `tls::Init/SetValue/GetValue/Term` over the POSIX keys, `Tls` objects by address | invariant: valid objects have different keys in use with the right values (`inv_step`) | Windows version; the key table itself (POSIX as specified) |
| C104 | `Model/Epoll`: `Epoll`, `AutoLock`, both versions of `queryAcceptNoThrow` in one world of times | case analysis on the order of the times; `Waits` determines the answer | hang-ups count as readiness; the null pointer of `del` is taken as such |
| C105 | `Model/XmlHeap`: `Node`, `appendChild`, `~Node`, `parseNode`, `MiniXml::parse`, `~MiniXml`, the constructor, `getFirstTagByName` on a memory of nodes with failing allocations | invariant `Filling`/`Grown` of the node being filled, induction on the parser; deletion by induction on the forest; refinement of `Model/MiniXml` | allocations of strings and map entries (they own themselves); depth of the stack |
| C106 | `Model/ProcObj`: class `Process` with its children and handles, both platforms | invariant (one owner, open iff owned) over all sequences of allowed operations; lost handles and zombies are invariants too | `Start` is `Model/Process`; threads sharing objects |
| C107 | `Model/Bench`: `CpuClock`, `put`, the three macros | relation of measured stretches; sums modulo 2^64; induction on passes | rounding of `double` and `printf`, negative counters |
| C108 | `Model/Desymbol`: `Bfd::getInfo`, the filter `desymbol` (with `hextoi`, `Exception`, `StackTrace` of the other models) | declarative first section, first address, region, words; invariant for the state over prefixes of the lines | opening files, options, the bfd library itself |
| C109 | `Model/StrAlias`: heap of string buffers with capacities, `append`, `assign`, the range constructor, `insert`/`replace` by ranges | induction over the range; frame condition for all other buffers | the basic_string inside is modelled by its contract (grows only if full, any growth policy) |
| C110 | `Model/CsvFile`: `CsvWriter`, `CsvReader` on `std::ofstream` with a buffer and a device of limited size | invariant file ++ buffer = text while the stream is good; round trip with C24 | the file system; exceptions of the streams themselves |
| C111 | `Model/FmSample`: `create`, `search`, `simpleSearch`, `recover` over the models of C16, C17, C32, C60 and C90 | composition of their theorems; strictly ascending lists with the same members are equal | opening files, arguments, printing and hashing of the positions; `USE_UTF32` is C128 |
| C112 | `Model/WaveletC`, `Model/FMindexC`: the template code of C14, C16 and C17 instantiated with the `CSucVector` of C18 | every level answers rank and get as C18 states; the descents and the backward search are then those of C14, C16, C17; agreement with the default index because both answer from the same sorted suffixes | building an index a second time (`C112_finding_rebuild`), select; save and load are C113 |
| C113 | `Model/FMindexCIO`: `save` and `load` of C60 instantiated with `CSucVector` | everything `init` builds on a new object fits the saved widths (block count by an invariant of the sampling loop), so loading gives the same members back; then C112 | for 16-bit characters the frequency table loaded into must be empty (as in C60) |
| C114 | `Model/ZlibSmpl`: `ZlibCompress`, `ZlibUncompress`, the program over the option parser of C36 | induction on the arguments with the option object of the program; zlib by its promises (a run-length codec shows they can be met) | messages; `compress2` with other levels; sizes beyond `uLongf` |
| C115 | `Model/CSucSmpl`: the program over the models of C18, C113 (`save`, `load`) and C10 (`BitVector`); the mapping as whole pages filled with zeros | invariant of the copying loop over the represented bits; first difference by induction; then C18 and C113 | the printed sizes; `Mmap` itself (C76) |
| C116 | `Model/Option2Smpl`: `parse1`, `parse` over the option parser of C36; the conversions are parameters | induction on the arguments for an object with one option and delimiters, both directions; uniqueness of the splitting | the messages, `put`, `setUsage` |
| C117 | `Model/SocketSmpl`: `main` up to the work over the option parser of C36, conversions of C35, `bind` of C80 | `C36_parse` with the six declarations; the values by induction over the texts given; `C80_bind_partial` | the loop of the server and the calls of the client (C16, C28, C80), messages |
| C118 | `Model/SerStream`: `load` and `save` of C19 again over an arbitrary `readSome` and `write`; the stream classes of C22, C54, C67 and of the sample as instances | `Spec/SerStream`: what a stream owes the serializer (`Serves`, `Ends`, `Takes`); `load` over a serving stream simulates `load` over the byte list of C19 (`sim_load`), so C19, C20 carry over; each class is shown to serve, end or take | user types are lists of fields; `InputStreamTag` specialised by a user as the sample documents is not consulted by `cybozu::read`, which calls `readSome_inner` directly (no effect in the sample, whose class has `readSome` too) |
| C119 | `Model/Select8Gen`: the loop of `select8` on 64-bit words and the printed text | induction over the positions with the number of ones so far; the table of C13 has the same specification, which determines the value | that `%d` with a `uint64_t` argument takes the low half (as on x86-64) is assumed |
| C120 | `Model/WmBench`: `Naive`, the measured calls over the model of `CYBOZU_BENCH` (C107), the generator (C44) and the matrix (C14, C15), the check, `main` | loop invariants for `Naive`; uniqueness of occurrence number r; the measured functions are equal in every state, so the measurements are | failing allocations; the text of an exception |
| C121 | `Model/PlsiSmpl`: `load` over the rows of the CSV reader, the learning loop, the question loop over the words of the input, the arguments | invariant over rows (ids, lists and observations); the loop is `steps` of C69 with a count of slow lines; induction over the words with C69 for the answers | `AtndInfo` (the printed names are a parameter); rounding (the count 44 is for real numbers); `main`'s joining of the file name |
| C122 | `Model/SvdSmpl`: the loop over the arguments, `Run`, `main`; the files are a map from names to bytes | induction over the arguments; composition with C100 (text files), the sizes of C73 as a hypothesis on `ComputeSVD` | what is printed; a disk that fills up while writing; the values of the factors (C73) |
| C123 | `Model/SslSmpl`: request, reading loop, status, on top of the connection of C77 | induction over the rounds of the loop with the invariants of C77; a pieces/shown relation as specification; termination under fairness | the other lines printed; exceptions other than `cybozu::Exception` |
| C124 | `Model/MecabSmpl`: `main` over the models of `Mmap` (C76) and `Mecab` (C93) | composition with C76 and C93, case analysis over the answers of the system | MeCab; Windows; messages |
| C125 | `Model/UStream`: `isValid`, `getline`, `>>`, `<<` and the reading loops of a user, over the model of `String` (C61, C62) | induction over the lines and words; lines and words specified by relations between a text and its parts; composition with C37, C62 | the standard streams themselves (written after the standard, "C" locale, width 0, no `exceptions()`) |
| C126 | `Model/ThreadObj`: object, owner and threads as a transition system (life of the object, handle, each thread's position) | invariant over all interleavings for owners that pair start and join; progress; findings as executions | `threadEntry` itself (any accesses to the object); the reaction to undefined behaviour |
| C127 | `Model/WaveletDirect`: the level loop of `init` on the `SucVectorT` of the level (`resize`, `set`, `ready`) | the two inner loops run in step (simulation), so the levels answer the same; then the lemmas of C14, C15 and C60 | that the two programs have the same layout of the class (no member depends on the macro) |
| C128 | `Model/FmSample32`: `simpleSearch`, `create`, `search`, `recover` with `FMindexT<Char>` and `String`; `Frequency<Char>` on streams with 4-byte keys | the lemmas of C16, C17, C60, C90 for 32-bit characters, C62 for decoding, C125 for the query file, C111 for the sets | printing, the hash, the arguments, the times |
| C129 | `Model/UFind`: the searches, `substr`, `erase` | induction over the text against the independent `IsFirst`/`IsLast`; a byte that is no continuation byte starts a character, UTF-8 is a prefix code; C111 and C128 for the two builds | `std::basic_string` is written after libstdc++ |
| C130 | `Model/TfIdfWeight`: `TfIdf::term` over the object of C57 and the sparse vector of C51 | the invariant of C57 plus: each map has different ids and positive counts; the weights against the independent `weight` | `double` is idealised to reals with one non-finite value; `log` is the real logarithm |
| C131 | `Model/Monitor`: the calls of `CriticalSection` and `ConditionVariableCs` as POSIX describes them, under an arbitrary program that guards a queue; the program of condition_variable_cs_test.cpp | invariants over all interleavings (owner of the lock, history of the queue, items ≤ threads on the way while somebody waits); a potential function bounds every run | the pthread calls are trusted to behave as POSIX says; errors of the calls are ignored as in the code |
| C132 | `Model/MonitorWin`: the programs of `Model/Monitor` driving the Windows `ConditionVariable` of `Model/CondVar` (C68), one Win32 call per step | the invariant of C68 with one more clause: while somebody waits, items ≤ posts of the semaphore + threads on the way; a potential function with the posts bounds every run | at most 2^30 threads and puts, since the semaphore stops at 2^31-1; `notifyAll` is only called with the mutex (without it, it can hang: C68) |
| C133 | `Model/UCompare`: the overloads of `compare`, the move members, `operator+(String&&, ..)`, `hash<String>` | a part is specified by a decomposition of the string; each step of the hashes is injective (the multiplier has an inverse), the last step is its own inverse; for two places the low bits of the product are compared | self-move (unspecified by the standard); `compare(const Char16*)`, which converts first (C38) |
| C134 | `Model/StdStream`: the adaptors over `istream::read`/`ostream::write` with `eofbit`, `failbit`, `badbit`, the mask of `exceptions` and a buffer that may fail or take less; `StringInputStream` on a growing string | case analysis of one request for good and not good streams, then induction over the history; an invariant for `read` (good, or at the end with bytes missing) | `rdbuf() == 0`; requests through `>>`; locale conversion in the buffer |
| C135 | `Model/OptShow`: `convertToStr`, `Holder::set`/`toStr` for single values and vectors, the texts of `OptionError`, copies of `Var`, `push_back` on the option table with a capacity, the copy constructor of `Option` | digits of canonical numerals never look like a unit or a prefix `0x`, so C35 gives the value; induction over arguments and elements | what `operator<<` prints for an integer is a parameter constrained to the canonical numeral; variables of other types (`operator>>`) |
| C136 | `Model/V128Lane`: every wrapper of one instruction on parts of a register, the instructions as in the manual of the processor | a register as the collection of its parts (extensionality for each width), then part by part; sums bounded for `psadbw` | `put` (printing) |
| C137 | `Model/RegexWrap`: the constructors of `regex`, `regex_search`, `regex_match`, `regex_replace`, `sub_match::str` over strings with lifetimes | the engine is a parameter with spans inside the text; reading back through iterators of a living or dead string | the engine; the iterators are in C138 |
| C138 | `Model/RegexIter`: `sregex_iterator`, `sregex_token_iterator` with strings, patterns and match objects that have a lifetime | a measure that falls with each `++`; the rule of the standard as an inductive relation (`Spec/RegexIter`); the spans cover the text | the engine and the base classes are taken from the standard; iterators over a part of a string |
| C139 | `Model/FreqCopy`: `Frequency` objects whose maps have a lifetime and a generation; iterators into them | invariant "every object has its own map" over all programs; a table whose iterators are its own is framed off from all other operations; refinement to the table of C32 | `load`; move assignment and `swap` |
| C140 | `Model/TfIdfCopy`: `TfIdf` objects whose vectors of documents are buffers with a lifetime; `curTf_` is a pointer into one | invariant "every object has its own buffer and its pointer is null or points to its last document"; refinement to objects as values over C57 | moves; the results of `term` |
| C141 | `Model/FsNames`: a file system of directory entries (files with numbers, directories, links), `stat`, `unlink`, `rename` of the system, and the four functions | links against an inductive relation; a name that does not exist has no entry or a link; invariant "the same files have names" over all sequences | paths below a renamed directory, hard limits and permissions (a universally quantified failure), Windows |
| C142 | `Model/Sha1Text`: the loop of `toString` with `%08x`, `get`, programs over one object (using the model of C40) | padding against digits of fixed length, invariant over all programs; the specification keeps the current message and the last hash | `snprintf` is modelled from the C standard |
| C143 | `Model/FileWin`: `CreateFile` arguments, positions, `WriteFile`, `ReadFile`, the Windows loops; programs over both systems (POSIX from C88) | simulation: same files and positions, appenders stand at the end; the condition on programs is judged on the POSIX run | deleting and renaming open files (refused on Windows); Windows functions as documented |
| C144 | `Model/TimeFmt`: `toString` with a format (`strftime` of the C locale for %Y y m b h B d e H I p M S a A j w u n t F T R D and %%), `setCurrentTime` | induction over the format; own calendar in the spec (month lengths, sum of years, weekday by counting) related to `gmtime`; reading back by the acceptance theorem of C34 | other conversions, other locales, times before 1970, `getTimeSec` (floating point) |
| C145 | `Model/BitVectorOwn`: `append` and `extract` with source and destination in one storage, capacity of `std::vector` | word loops in one storage equal the loops with separate arrays (induction, reads ahead of writes), then the refinement theorems of C10 | `append` from an address inside the vector not on a word boundary does not exist (the argument is a `T*`) |
| C146 | `Model/OptionShare`: the parser with a memory; a declaration has the address of its variable | erasing the values gives a run of the parser of C36 (simulation), so acceptance comes from `C36_parse`; the memory by induction over the reading of the command line | conversions whose acceptance depends on the old value (none in the library) |
| C147 | `Model/Sha` (as for C39); the caller is `run` in `Props/ShaSession` | the invariant of C39 also holds after `digest`, for the padded message and the bytes left in the buffer; induction over the calls | the OpenSSL branch |
| C148 | `Model/ArrayFail`: the functions of `Model/Array` with `posix_memalign` that may fail | a call that is not refused memory is the call of C47 (unfolding), the others change nothing; invariant of C47 plus capacities, induction over the history | `_aligned_malloc` (Windows), the address itself (its alignment is the contract of `posix_memalign`) |
| C149 | `Model/ProcMany`: any number of calls of `Start` sharing one table of descriptors, each with its own child; a step is one system call | invariants over executions (who holds which end of which pipe, what the children have of the earlier descriptors); a measure for termination; a trace of two threads and an invariant kept until the other program ends for the finding | `closeStdio` (C63 has it for one call) |
| C150 | `Model/TopNan`: `add` with scores that are a number or NaN; comparisons with NaN are false; the rest is `Model/TopScore` | invariant: the numbers in the table are the best of the numbers added, by induction over the additions | 0 and -0 are one number; `maxSize` 0 and 1 (C50) |
| C151 | `Model/SerFixed`: `save`/`load` with integers and sizes as PODs of 4 and 8 bytes | the decoder lemmas of C20 with the fixed-size integers; induction on the type | little-endian machine, `size_t` of 8 bytes; `reserve` of an impossible size (the loads that follow throw) |
| C152 | `Model/OptStream`: `convert<T>` with the extraction of libstdc++ (`num_get`, the zeros it drops, `strtod`) for floating point types, `char`, `bool` | numerals by a grammar; the two passes over the text are shown to find exactly the numeral; every text is decomposed | the rounding of a decimal number is a parameter; the "C" locale; other standard libraries (libc++ takes other characters) |
| C153 | `Model/ConfigPtr`: the functions of `Config` and `Section` with an identity for every section and text; `ResultType`, references to the default argument | forgetting the identities gives the model of C25 and C97; invariant: identities are distinct; a simulation-like relation says what survives an operation | one `Config` that lives all the time; `std::map` keeps its nodes on insertion and destroys them on assignment; memory is never short |
| C154 | `Model/QuitEvent`: the threads of C48 and C102 with a second frame for the handler of each thread; a predicate says where signals may be delivered | invariants over executions; a measure for the release of the mutex; an invariant that is never left for the finding; counting for the pipe | a `std::mutex` locked again by its owner waits (undefined in C++); `quit` does nothing but `wakeup`; the Windows handler runs on a thread of its own and is C102 |
| C155 | `Model/LogThreads`: threads as a transition system; a step is one access to `fp_` with its library call; buffers and files are separate; a flag says whether `OpenLogFile` may overlap other calls | invariants over executions (open files; disk and buffer against the calls of `fprintf`; position of each line of a thread) | `fprintf` and `fflush` on one `FILE` are atomic; failures of library calls are C72; members of `Logger` are sequentially consistent; priority and flags do not change meanwhile |
| C156 | `Model/Appenders`: objects as a transition system; a step is the call, one `::write` (at the end of the file with `O_APPEND`, else at the own position), or the return | invariants over executions: file against the sequence of accepted pieces, pieces of an object against the texts it was given | `O_APPEND` writes are atomic (POSIX; not NFS); failing and interrupted calls are C54; opening (C88) comes before |
| C157 | `Model/Sigpipe`: the disposition of the signal, programs as sequences of actions; `Socket::write` with an answer "the other end is gone" | refinement of `PartialIO.Socket.writeLoop` (C54) for every disposition but the default; induction over programs | Windows (`WSAStartup`, no such signal); threads with a blocked signal |
| C158 | `Model/SocketUse`: threads, `sd_`, the descriptor table of the process; a step is one access to `sd_` or one system call | invariant over executions; the findings are executions | accesses to `sd_` are atomic (the member is a plain `int`); the bytes transferred (C54); closing exactly once is C55 |
| C159 | `Model/MmapLive`: names, files, the steps of the constructor and of other programs; reading a byte of a shared mapping | invariants over executions for three kinds of behaviour of other programs | `MAP_SHARED` is coherent with `write` (Linux); failing system calls are C76; Windows |
| C160 | `Model/SocketServ`: a pass of the loop with the answers of the library calls as parameters, descriptors as a list | induction over the clients | the calls themselves (C54, C80); `bind`; a server that is stopped by a signal |
| C161 | `Model/SslStatic`: construction and destruction of static objects as the C++ standard orders them, with what OpenSSL is told as events | invariants before and after the construction of `ctx_`; counting | a context that cannot be made (`exit(1)`); threads; OpenSSL 1.1 cleans up by itself, then the calls of `~Engine` do nothing |
| C162 | `Model/ParallelSigned`: the arithmetic of `parallel_for` for a signed type, overflow as undefined behaviour | induction over the loops with the bounds of C49; case analysis for negative arguments | the schedule of the threads is C49; `new[]` of an impossible size throws `std::bad_array_new_length` (C++11) |
| C163 | `Model/CsvRecover`: `read` with the state of the reader after an exception; a round is proved to be the round of `Model/Csv`, and a call to be the call of `Model/Csv` for every buffer and fragmentation (`C163_call`) | induction over the input | a stream that fails |
| C164 | `Model/SucFail`: `load` with the object an exception leaves behind; proved to be `loadSV` of `Model/IndexIO` otherwise | composition of C60 (loads and cut inputs) and C12 (`init` for every old object) | what an interrupted `loadRange` leaves in a vector is arbitrary; the loads of the other structures |
| C165 | `Model/ConfigFail`: `load` with the object and the lines an exception leaves behind; proved to be `load` of `Model/Config` otherwise | induction over the lines; the kept entries by the specification of C26 (`Says`, `entries`) | `std::bad_alloc`; `load(name)`, which opens the file anew |
| C166 | `Model/LineStream` (of C23), which keeps the object after an exception; `Model/LineFail`: `next` with a reader that throws, proved to be the same for a reader that does not | induction over the rounds of `next`: the outcome is a state that throws again, or the end; an exception of the reader leaves what is left unchanged | a reader that has taken data before it throws |
| C167 | `Model/Option` (of C36), where `parse` gives back the parser | induction over the rounds of `parse` and over the calls: an invariant between the parser before and after | variables changed by the program between the calls |

## Findings

Places where the code does not do what its users would expect. Those with a theorem are proved for the model.

| header | finding | theorem |
|---|---|---|
| atoi.hpp | text made of the minimum of the type followed by anything is accepted (`-2147483648xyz`) | `C05_min_then_more_accepted`, `C05_full_statement_fails` |
| atoi.hpp | a C string passed without size can be read beyond its end | `C05_cstring_overread` |
| itoa.hpp | `intToDec<int>(INT_MIN)` negates it (undefined) | `C04_intToDec_int_min_ub` |
| itoa.hpp | where `long` has 32 bits `itoa(unsigned long)` casts to `int`: values from 2^31 on are printed as negative numbers | `C04_finding_ulong32` |
| bitvector.hpp | `init` keeps bits above the size | `C10_init_keeps_stale_bits`, `C11_init_breaks_eq` |
| bitvector.hpp | `==` ignores the length | `C11_length_ignored` |
| bitvector.hpp | `extract`: `pos + bitLen` wraps; `resize` near 2^64 wraps | `C10_extract_wrap_ub`, `C10_resize_wrap` |
| bitvector.hpp | `append(uint64_t)` on 32-bit words keeps garbage above the size | `C10_append32_keeps_garbage` |
| sucvector.hpp | bits behind the size are counted by rank at the size | `C12_dirty_tail_counted` |
| sucvector.hpp | `size(false)` counts padding; `load` leaves the object writable | `C12_size0_counts_padding`, `C12_load_not_frozen` |
| sucvector.hpp | `select0` beyond the last zero answers a position outside | `C13_select_beyond_size` |
| sucvector.hpp | `init` does not end at the largest size | `C13_init_hangs_at_max_size` |
| wavelet_matrix.hpp | `rankLt` wrong by 2^32 for 2^29 16-bit elements | `C14_rankLt_overflow` |
| wavelet_matrix.hpp | `rank` wrong at 2^32 elements; `get` on a zero-bit matrix reads outside | `C14_rank_at_4G`, `C14_get_zero_bits` |
| frequency.hpp | `init` does not clear | `C32_init_accumulates` |
| fmindex.hpp | a rebuilt index answers wrong ranges and old positions | `C16_rebuild_wrong_range`, `C17_rebuild_old_positions` |
| fmindex.hpp | failure -2 of the sorter is ignored; `FMindexT<uint16_t,true>` always throws; the terminator is found | `C16_sorter_failure_ignored`, `C16_raw_wide_throws`, `C16_raw_zero_key_found` |
| csucvector.hpp | endless loop near 2^32 bits; second `init` keeps old blocks; dirty tail counted | `C18_finding_endless`, `C18_finding_second_init`, `C18_finding_second_init_ub`, `C18_finding_dirty_tail` |
| string_operation.hpp | `Split` with `maxNum = 0` is unlimited; `CaseFind` with non-ASCII target misses or over-reads; empty in empty not found | `C29_zero_is_unlimited`, `C31_find_non_ascii_missed`, `C31_find_non_ascii_overread`, `C31_find_empty_in_empty` |
| string.hpp | negative `Char` is written as one byte; lone trail surrogates accepted | `C37_negative_char_accepted`, `C38_lone_trail_accepted` |
| serializer.hpp | loading a value saved as another width is wrong below -32768; set, map, unordered_map are not cleared | `C19_cross_width_wrong`, `C20_set_not_cleared`, `C20_map_keeps_old_value`, `C20_umap_keeps_old_value` |
| line_stream.hpp | limit 1 refuses "a\r\n"; limit 0 loses lines; state after a too long line | `C23_limit_one_refuses`, `C23_limit_zero_loses_lines`, `C23_after_too_long` |
| csv.hpp | last row without line end lost; open quote unreported; trailing empty field dropped; 0xff ends the stream; CR dropped; limit on the whole file | `C24_last_row_lost`, `C24_open_quote_unreported`, `C24_trailing_empty_field_dropped`, `C24_ff_ends_stream`, `C24_cr_dropped`, `C24_limit_is_on_file` |
| config.hpp | empty names accepted; values with LF or trailing CR do not survive | `C26_empty_names_accepted`, `C25_value_limits`, `C26_cr_inside_value` |
| minixml.hpp | attribute values printed unescaped; `<a/>` is an element `a/`; only the last text piece kept; trailing text ignored | `C28_quote_not_escaped`, `C28_empty_element_refused`, `C28_content_last_wins`, `C28_trailing_text_ignored` |
| time.hpp | FILETIME before 1970 wraps, late FILETIME overflows; 19 characters with a month name over-read; exception path over-reads; February 31 accepted; "-0" and NUL fields accepted | `C33_before_1970_wraps`, `C33_late_filetime_overflows`, `C34_month_name_overread`, `C34_exception_overread`, `C34_february_31`, `C34_loose_fields_accepted` |
| option.hpp | minimum followed by more accepted; refused hexadecimal clears the variable; "-" exits; bad values for `appendParamVec` dropped; list option swallows a delimiter | `C35_min_then_more_accepted`, `C35_refused_hex_clears`, `C36_dash_exits`, `C36_bad_rest_ignored`, `C36_delimiter_swallowed` |
| sha2.hpp | `digest` does not reset the object; too small buffer returns 0 | `C39_digest_does_not_clear`, `C39_small_buffer` |
| hash.hpp | `char` is sign-extended; zero intermediate value restarts; `hash64` cannot be continued | `C43_finding_signed_char`, `C43_finding_zero_intermediate`, `C43_finding_hash64_not_compositional` |
| xorshift.hpp | 128-bit generators accept the zero seed and stay at 0 | `C44_finding_zero_seed` |
| random_generator.hpp | byte count cast to `int` (2^31 bytes and more) | read only |
| array.hpp | size times element size unchecked; self-move empties | `C47_finding_overflow`, `C47_finding_self_move` |
| nlp/top_score.hpp | `maxSize = 1` writes outside; `setSize` leaves an empty table; `getTable` on a table that is not full breaks later adds | `C50_finding_size_one`, `C50_finding_set_size`, `C50_finding_get_table` |
| nlp/tfidf.hpp | case variants counted twice; upper-case keywords never found; `term()` uses the number of words as the number of documents | `C57_finding_case`, `C57_finding_upper_keyword`, `C57_finding_term` |
| nlp/sparse.hpp | a push that throws breaks an iterator at the last element | `C51_finding_failed_push_breaks_iterator` |
| nlp/sparse.hpp | `Union::getMode` has no return statement | read only |
| zlib.hpp | header CRC skipped, not compared | `C53_finding_header_crc_ignored` |
| file.hpp | `GetBaseName` takes a dot in a directory name; `File::read` never returns at the end of the file | `C56_finding_directory`, `C54_finding_file_read_eof` |
| event.hpp | two wake-ups before a wait count as one | `C48_finding_coalesced` |
| parallel.hpp | an exception with empty text is swallowed; when a thread cannot be started, objects of running threads are destroyed | `C49_finding_empty_what`, `C49_finding_destroyed_while_running` |
| socket.hpp, thread.hpp | `bind`, `accept`, `beginThread` on an object with a handle lose it; concurrent moves into one object lose one; early detach does nothing | `C55_finding_overwrite`, `C55_finding_move_race`, `C55_finding_early_detach` |
| frequency.hpp | `load` of a 16-bit table keeps the entries of the destination | `C60_finding_frequency_keeps` |
| sucvector.hpp | `load` does not check the sizes against the data; later queries read outside | `C60_finding_not_validated` |
| string.hpp | self-assignment of `String` empties it; a failing assignment destroys the old content | `C62_finding_self_assign`, `C62_finding_failed_assign` |
| string.hpp | `Utf8ref` ignoring bad characters swallows good ones after a lone lead byte | `C61_finding_swallows` |
| string.hpp | `append(s.begin(), s.end())` of a string to itself pushes back while reading through iterators | read only |
| process.hpp | `maxFd` is initialised with itself; the loop closing descriptors also closes the pipe used to report a failing `execv`: if it works as intended, `run` returns true for a program that does not exist | `C63_exec_failure_unreported` |
| process.hpp | with the standard descriptors closed in the caller, `toDevNull` overwrites the pipe, and leaves descriptor 0 closed | `C63_closed_stdio_unreported` |
| process.hpp | the exit code is delivered by one call of `isAlive` only, later calls store 0 | `C64_isAlive` |
| process.hpp | Windows: an argument with a backslash before a quotation mark or at its end does not arrive, and swallows the next one | `C65_cmdLine_iff` |
| process.hpp | `run` with separate parameters drops empty arguments | `C65_runArgs` |
| zlib.hpp | the gzip trailer (CRC and length) is never read, so it may be wrong or missing | `C67_finding_trailer_ignored` |
| condition_variable.hpp | Windows: `notifyAll` called without the mutex (as in the library's test) can hang, because a thread that begins to wait later takes a wake-up | `C68_finding_notifyAll_without_mutex_hangs` |
| condition_variable.hpp | Windows: the wake-up of `notifyOne` can go to a thread that began to wait after the call, while the earlier one sleeps on | `C68_finding_stolen_wakeup` |
| condition_variable.hpp | Windows: superfluous `notifyOne` calls are remembered and make a later `wait` return unnotified | `C68_finding_spurious_wakeup` |
| nlp/plsi.hpp | `search_items` and `similar_items` with a key that is not known add it and read outside of the learned vectors | `C69_finding_unknown_user`, `C69_finding_unknown_item` |
| nlp/plsi.hpp | a second `startLearning` appends to `z_`; the next `step` reads outside of `user_z_` | `C69_finding_start_twice` |
| sample/plsi_smpl.cpp:28, nlp/sparse.hpp:220-227 | a second `set` for the same item does not replace its row: it appends, or throws if the new users do not all come after the old ones | `C69_finding_set_twice` |
| nlp/plsi.hpp | `step` with no observations divides zero by zero: all parameters become NaN | `C69_finding_no_data` |
| nlp/random.hpp | `NormalRandomGenerator` passes its seed as the lower end of the interval: the seed does not seed, and seed 1 gives a constant | `C70_finding_seed_one`, `C70_finding_seed_ignored` |
| test.hpp | `CYBOZU_TEST_EQUAL(size_t, int)` finds `2^64-1` and `-1` equal | `C71_finding_negative_int` |
| test.hpp | `CYBOZU_TEST_EQUAL` compares floating point numbers by bits: `0.0` and `-0.0` differ, a NaN equals itself | `C71_finding_float_bits` |
| test.hpp | `CYBOZU_TEST_NEAR` on unsigned operands fails whenever `x < y` | `C71_finding_near_unsigned` |
| test.hpp | a failing `CYBOZU_TEST_EQUAL` evaluates its operands again; what is printed may differ from what was compared | `C71_finding_evaluated_twice` |
| log.hpp | `openFile`: if closing the old file fails, the new file is never closed and the logger has no file | `C72_finding_leak` |
| log.hpp | after `closeFile()` or that failure messages are dropped without a sign | `C72_finding_silent` |
| log.hpp | `SetLogPriority`: the comment says messages of an equal priority are not shown; they are | `C72_finding_equal_priority` |
| log.hpp | a message is cut at a NUL | `C72_finding_nul` |
| nlp/svd.hpp | `ComputeSVD`: the comment promises `t(U) U = I`; for `(1, -1)` as a column and rank 1 all factors are zero, since the start matrix adds up the rows | `C73_finding_lost` |
| nlp/svd.hpp | `InitUnitMatrix` multiplies row index and rank as `int`: overflow for 50000 rows and rank 50000 | `C73_finding_overflow` |
| v128.hpp | `rotrByte<n>` compiles for `n > 16` but loses bytes instead of rotating | `C74_finding_rotr_loses` |
| v128.hpp | `V128::shrBit`, `shlBit` use `operator\|`, which `V128` does not have: they do not compile | (by reading) |
| json.hpp | `swap` of a value with one of its own elements makes a cycle that is never freed | `C75_finding_swap_cycle` |
| mmap.hpp | `get()` of an empty file is `MAP_FAILED` on Linux, 0 on Windows | `C76_finding_empty` |
| ssl.hpp | `read` never ends when the peer closes before enough bytes (`Socket::read` throws) | `C77_finding_read_hangs` |
| ssl.hpp | `close()` throws in the usual case that `SSL_shutdown` returns 0 | `C77_finding_close_throws` |
| ssl.hpp | after a failed `connect` the socket stays open; the next `connect` and the needed `close()` throw | `C77_finding_failed_connect` |
| ssl.hpp | a second connection with the same object looks connected but every `write` fails: the `SSL` object is not cleared | `C77_finding_second_connection` |
| crypto.hpp | the key length of `Hmac::eval` is cast to `int`: a key of 2^32 + n bytes counts as its first n | `C78_finding_hmac_key` |
| crypto.hpp | `Cipher::setup` does not check the length of the vector and reads behind it | `C78_finding_iv` |
| crypto.hpp | `Cipher::setup` accepts a key whose length is right modulo 2^32 only | `C78_finding_key` |
| crypto.hpp | `Hash` and `Cipher` can be copied; both copies free the context | `C78_finding_copy` |
| crypto.hpp | `Cipher(name)` of an unknown name throws without freeing the context | `C78_finding_cipher_leak` |
| socket.hpp | `SocketAddr::set` with `forceIpV6` never frees the list of the first `getaddrinfo` | `C79_finding_leak` |
| socket.hpp | a failed `Socket::connect` leaves the descriptor open (and not blocking, with a time limit); another `connect` throws | `C80_finding_failed_connect` |
| socket.hpp | `connect` with a time limit fails for every descriptor from 1024 on | `C80_finding_large_descriptor` |
| socket.hpp | `bind` with mode 0 listens on IPv4 | `C80_finding_no_mode` |
| socket.hpp | `setLinger` passes the bytes of a pointer to the kernel instead of the structure | `C80_finding_linger` |
| exception.hpp | A NUL byte inside a text drops the rest of the text; in the name it hides everything behind it | C81_finding_nul |
| exception.hpp | `wstr2str` does not escape backslashes: a character and the text of its escape look the same | C81_finding_backslash |
| stacktrace.hpp | A parenthesis in the path of the program makes the demangler be asked for the wrong name | C82_finding_path |
| benchmark.hpp | `getClock` between `begin` and `end` shows a value unrelated to the time measured | C83_finding_running |
| thread.hpp | `Begin` returns false although the thread runs if the attribute object cannot be destroyed | C84_finding_destroy |
| tls.hpp | `Tls` can be copied: the key is deleted twice and given to another object meanwhile | C85_finding_copy |
| env.hpp | On Windows a variable of 4096 bytes or more counts as not set | C86_finding_long |
| format.hpp | `va_end` is not called when formatting fails | C86_finding_va_end |
| file.hpp | The destructor does not close the descriptor when `fdatasync` fails, as it does for pipes and terminals | `C87_finding_sync` |
| file.hpp | The constructor for appending leaks the descriptor when the file cannot be positioned | `C87_finding_append` |
| file.hpp | `isFile` and `isDirectory` throw for entries of file systems that do not tell the type | `C89_finding_unknown` |
| file.hpp | `DoesFileExist` cuts a backslash also on Linux: a file named `a\\` is not seen and `RenameFile` overwrites it | `C89_finding_backslash` |
| file.hpp | `DoesFileExist("/")` is false | `C89_finding_root` |
| file.hpp | `GetExePath` cuts paths of 4095 bytes without notice and may return the wrong directory | `C89_finding_long` |
| fmindex.hpp | texts of 2^31 - 1 characters or more are accepted by the size check but refused by the sorter, whose length argument is an `int` | `C16_long_text_throws` |
| random_generator.hpp | `read` of 2^31 to 2^32 - 1 bytes passes a negative `int` to `fread`, which becomes nearly 2^64: the memory behind the buffer is overwritten | `C92_finding_overrun` |
| random_generator.hpp | requests of 2^32 bytes and more (with small low 32 bits) always fail; a count whose product with the element size is 0 modulo 2^64 succeeds without reading anything | `C92_finding_refused`, `C92_finding_overflow` |
| random_generator.hpp | on Windows a request of 2^32 bytes or more is cut to its low 32 bits and reported as filled | `C92_finding_windows_truncates` |
| nlp/mecab.hpp | length 0 means "not given": for an empty part of a longer text everything up to the next NUL is parsed | `C93_finding_empty_part` |
| nlp/mecab.hpp | white space is only skipped before a word: a line feed directly after the last word becomes part of it | `C93_finding_line_feed` |
| nlp/mecab.hpp | `isNoun` tests the length of the word instead of the feature: one-byte nouns are missed | `C93_finding_short_noun` |
| nlp/mecab.hpp | `Mecab` can be copied, and the tagger is then deleted twice | `C93_finding_copy` |
| regex.hpp (Windows) | `[[:alpha:]]` matches digits, `[[:alnum:]]` is unknown, `\w` matches every ASCII character | `C94_finding_alpha`, `C94_finding_alnum`, `C94_finding_word` |
| regex.hpp (Windows) | the array version of `is` calls every character of 256 and more a control character | `C94_finding_is_array` |
| regex.hpp (Windows) | `widen` extends the sign: bytes 0x80 to 0xFE are not given back by `narrow` | `C94_finding_narrow` |
| mutex.hpp | two nested `AutoLock`s for the same mutex hang for ever on Linux, on Windows they work | `C96_finding_nested_hangs`, `C96_nested_recursive` |
| mutex.hpp | only the assignment of `AutoLockT` is private: a copy can be made, which does not lock but unlocks, and another thread loses its lock | `C96_finding_copy` |
| config.hpp | blanks are skipped before '=' but not after it: `port = 80` has no integer value, and asking for it throws even with a default | `C97_finding_blank` |
| config.hpp | an integer value that is the type's minimum followed by anything is accepted; what follows a NUL is ignored | `C97_finding_min_then_more`, `C97_finding_nul` |
| nlp/sparse.hpp | `set(map)` does not replace the content: a second `set` throws unless its keys are all larger | `C98_finding_set_appends` |
| option.hpp:724-738 | `isSet(NULL)` returns `false` instead of throwing when there is no `appendParamVec`, because `remains_.var.get()` is null then | `C99_finding_null` |
| option.hpp:255, 283 | Copying an `Option` without `appendParamVec` dereferences a null pointer (`rhs.p_->clone()` of `remains_.var`) | `C99_finding_copy_null` |
| option.hpp:255 | A copy of an `Option` answers `false` for `isSet` of every variable | `C99_finding_copy_forgets` |
| option.hpp:362 | `push_back` of a full `infoVec_` copies the `Var`s; options declared after `parse` so may reset all `isSet` flags | `C99_finding_append_forgets` |
| nlp/svd.hpp:230-233 | An empty first line leaves `c` uninitialised and it is compared | `C100_finding_blank` |
| nlp/svd.hpp:295-296 | Whatever cannot be read in a line of a sparse file is dropped with the rest of the line and `true` is returned | `C100_finding_garbage` |
| nlp/svd.hpp:319-356 | Entries not in ascending order are passed to `insertBack`, which requires that order | `C100_finding_order` |
| nlp/svd.hpp:358-381 | `LoadVector` ignores that a vector is declared sparse and reads `3:7` as 3 | `C100_finding_sparse_vector` |
| nlp/svd.hpp:232 | A number of columns that does not fit `int` is accepted as 2147483647 | `C100_finding_columns` |
| nlp/svd.hpp:399-419 | For column-major sparse matrices (Eigen's default) the lines are columns and each entry shows the column again: the rows are lost | `C100_finding_column_major` |
| nlp/tfidf.hpp:87-99 | `Df::term` does not clear `pv_`: a second call lists words twice | `C101_finding_twice` |
| nlp/tfidf.hpp:95-97 | A rate above 1 puts the middle of `partial_sort` behind the end | `C101_finding_rate` |
| nlp/tfidf.hpp:136-137 | `loadKeywordFile` stops without an error at a line without a tab; the remaining keywords are lost | `C101_finding_line` |
| nlp/tfidf.hpp:108, 136 | A word that contains a tab is cut on the way through the file | `C101_finding_tab` |
| event.hpp:88-117 | The pipe version counts wake-ups, the other versions merge them: programs behave differently | `C102_finding_versions` |
| event.hpp:112-117 | The result of `read` is ignored: after a signal `wait` returns without a wake-up | `C102_finding_signal` |
| event.hpp:106-111 | `wakeup` blocks when the pipe is full of wake-ups nobody has waited for | `C102_finding_blocks` |
| string_operation.hpp | `ToLower(s, s, true)` writes behind the end of the string: the length is read again after `resize` | `C31_finding_append_to_itself` |
| socket.hpp:121-137 | With epoll the time 0 waits for ever, with select it answers at once | `C104_finding_zero` |
| socket.hpp:121-137 | With epoll the time -1 does not wait and other negative times wait for ever; select refuses all of them | `C104_finding_negative` |
| socket.hpp:621-634 | `queryAcceptNoThrow` throws if the socket cannot be entered into the epoll instance | `C104_finding_throws` |
| minixml.hpp:404-411 | A second `parse` of the same object overwrites `root_` and loses the first document | `C105_finding_second_parse` |
| minixml.hpp:419-423 | The constructor that takes a text loses the nodes made so far if the text is refused after the header | `C105_finding_constructor` |
| minixml.hpp:439 | `get()` of an object that has not parsed dereferences null | `C105_finding_get_unparsed` |
| minixml.hpp:144-153, 154-164 | If `new Node` fails in `appendChild`, a null stays in the list of children and `getFirstTagByName` follows it | `C105_finding_null_child` |
| process.hpp:258-263, 285-292 | Assigning to an object that has a child aborts, with NDEBUG it leaks the handle for ever | `C106_finding_assign` |
| process.hpp:222-252, 316-320 | An object keeps the pid of a child that is gone; after the pid is reused it says alive and takes the exit code of a stranger | `C106_finding_stale_pid` |
| process.hpp:227-229 | On Windows a child that ended with code 259 counts as alive | `C106_finding_259` |
| process.hpp:211-214, 264-270 | On a POSIX system a running child whose object is destroyed or reused is never waited for | `C106_finding_zombie` |
| process.hpp:195-198 | `Start` returns false after a `waitpid` that may come before the child has ended; the child stays a zombie | `C63_finding_failed_child_not_waited` |
| benchmark.hpp:73-76, 82-86, 173 | A 32-bit counter that wraps, or a clock set back, makes the time nearly 2^64 and ends the measurement | `C107_finding_wrap` |
| benchmark.hpp:114, 208 | `put` before any `end`, or `CYBOZU_BENCH_C` with 0, divides by zero | `C107_finding_zero` |
| bfd.hpp:95 | `vma + size` wraps: a section that ends at 2^64 is never found | `C108_finding_top_section` |
| sample/desymbol.cpp:53-56 | The rest of a one-line trace after a word that is no address is lost | `C108_finding_rest_lost` |
| sample/desymbol.cpp:123 | A line is cut at a NUL | `C108_finding_nul` |
| string.hpp:554-563 | `s.append(s.begin(), s.end())` reads freed memory if more than one character does not fit | `C109_append_own_partial` |
| string.hpp:670-673 | `s.assign(s.begin(), s.end())` makes every character NUL; a range that begins later is read behind the end | `C109_finding_assign_own` |
| csv.hpp:273-281 | A full device goes unnoticed if the last bytes are written by the destructor | `C110_finding_lost_silently` |
| csv.hpp:277-281 | A separator that is refused costs the old file its contents: it is opened first | `C110_finding_truncated` |
| csv.hpp:254-258 | A missing file is read as one without rows | `C110_finding_missing` |
| csv.hpp:153-167 | A read error is taken for the end of the file, the beginning of a row for a row | `C110_finding_cut_row` |
| sample/fmindex_smpl.cpp:133 | A text containing every byte value, or of 2^31 - 1 bytes or more, cannot be indexed | `C111_finding_all_bytes`, `C111_finding_long` |
| include/cybozu/csucvector.hpp:491 | A wavelet matrix over CSucVector built a second time counts wrongly, because the blocks of its levels are appended to the old ones | `C112_finding_rebuild` |
| include/cybozu/csucvector.hpp:491 | A loaded matrix over CSucVector cannot be built anew: `init` appends to the loaded blocks | `C113_finding_rebuild` |
| sample/zlib_smpl.cpp:24 | The room for uncompressing is ten times the compressed size: a file that compresses better than 10:1 cannot be uncompressed again by the program | `C114_finding_ratio`, `C114_roundtrip` |
| sample/zlib_smpl.cpp:36 | Whether the output file could be opened and written is not looked at; the program ends with 0 | `C114_finding_write` |
| sample/option2_smpl.cpp:31-33 | `getNextPositionOfDelimiter` is never 0; without arguments `argv[pos - 1]` is the program's name, so a program called `run` runs without a command | `C116_finding_own_name` |
| sample/socket_smpl.cpp:26-39 | the `switch` over the mode is before `parse`: `-m 0` listens for IPv4 only although documented as both, other modes are not refused | `C117_finding_mode0`, `C117_finding_bad_mode` |
| sample/socket_smpl.cpp:46 | `timeoutSec * 1000` overflows `int` for `-t` above 2147483 | `C117_finding_overflow` |
| sample/socket_smpl.cpp:25 | the arguments of `appendParamOpt` are off by one: a client without text sends "cmd" | `C117_finding_default` |
| sample/serializer_smpl.cpp:77-83 | `VecInputStream::readSome` at its end forms `&data[data.size()]`: loading from exhausted data is undefined instead of an exception | `C118_finding_sample_end` |
| misc/make_select8tbl.cpp:22 | `printf("%d, ")` is given a `uint64_t`: undefined (works on x86-64) | `C119_output` |
| sample/wm_bench_smpl.cpp:143,171 | `-b 64` or a negative number is an undefined shift | `C120_finding_shift` |
| sample/wm_bench_smpl.cpp:72 | the line of `rankLt` is labelled `rank` | `C120_main` |
| sample/plsi_smpl.cpp:20 | a blank line in the data file: `line[0]` of an empty vector | `C121_finding_blank_line` |
| sample/plsi_smpl.cpp:28 | a second row of an item throws or is appended | `C121_finding_item_twice` |
| sample/plsi_smpl.cpp:145 | the temperature `beta` is printed and decreased but never passed to `step` | `C121_finding_beta_unused` |
| sample/plsi_smpl.cpp:191-194 | asking for a user or item that is not in the data reads outside of the learned vectors | `C121_finding_unknown` |
| sample/svd_smpl.cpp:93 | the value of `Run` is ignored: status 0 when the input cannot be loaded | `C122_finding_status` |
| sample/svd_smpl.cpp:49-58 | the value of `ComputeSVD` is ignored: rank 0 replaces the output files by ones that cannot be loaded | `C122_finding_rank_zero` |
| sample/svd_smpl.cpp:71 | `-r` as the last argument is taken as a name | `C122_finding_last_r` |
| sample/svd_smpl.cpp:73 | `atoi` of a C string reads behind the end for a sign or a bad number | `C122_finding_rank_word` |
| sample/svd_smpl.cpp:56 | an input `x.U` with the output `x` is overwritten | `C122_finding_overwrites` |
| sample/svd_smpl.cpp:47 | undefined behaviour for a blank first line or a descending sparse row | `C122_finding_input` |
| sample/ssl_smpl.cpp:31 | each piece is printed up to its first NUL, so the output depends on how the answer was cut | `C123_finding_nul` |
| sample/ssl_smpl.cpp:33 | the length is cast to `int` | `C123_finding_total` |
| sample/mecab_smpl.cpp:26 | an empty file: `parse` with the length 0 calls `strlen(MAP_FAILED)` | `C124_finding_empty` |
| sample/mecab_smpl.cpp:26-32 | a failure of `parse` gives status 0 and no message | `C124_finding_status` |
| string.hpp:1548-1562 | a read at the end of the stream empties the string; `std::getline` leaves it alone | `C125_finding_cleared` |
| string.hpp:1548-1554 | a delimiter outside ASCII cuts characters | `C125_finding_delimiter` |
| thread.hpp:196-199 | `~ThreadBase` joins when the derived part is already destroyed: pure virtual call or use of destroyed members | `C126_finding_pure_virtual`, `C126_finding_destroyed` |
| thread.hpp:201-204 | a second `beginThread` forgets the first thread | `C126_finding_twice` |
| thread.hpp:154-156, 215-222 | Windows: after a `joinThread` whose time was over the next one returns true at once although the thread runs | `C126_finding_timeout` |
| thread.hpp:125, 196-199 | POSIX: a failing `pthread_create` may leave anything in the handle, which the destructor joins | `C126_finding_failed_begin` |
| sucvector.hpp:266-269, wavelet_matrix.hpp:207-211 | files of the same sequence written with and without CYBOZU_WAVELET_MATRIX_DIRECT_CONSTRUCT differ in the counts of zeros | `C127_finding_files_differ` |
| fmindex.hpp:93, wavelet_matrix.hpp:171 | `FMindexT<Char>` admits 2^32 codes but cannot index a text of 65535 or more different characters | `C128_finding_many` |
| string.hpp:1200-1357 | (border, not a defect) `find_first_of` over the bytes of a non-ASCII set matches bytes of other characters | `C129_finding_of_bytes` |
| tfidf.hpp:185 | `N` is `tf_.size()`, which does not count documents without a keyword: a keyword found in one document of a thousand gets weight 0 if no other keyword is found | `C130_finding_N` |
| tfidf.hpp:190-197 | a second `term` appends all vectors again instead of replacing them | `C130_finding_twice` |
| condition_variable_cs_test.cpp:22-28 | the test waits without a condition: if the notifications come before the threads wait, it hangs | `C131_finding_test_can_hang` |
| string.hpp | a string with a NUL character differs from its own `c_str()` | `C133_finding_nul` |
| stream.hpp | one short request of more than a byte makes an `std::istream` deaf for all larger requests, whatever is appended to the file | `C134_finding_stuck` |
| stream.hpp | `readChar` wipes out every error flag: a stream at its end, failed or never opened looks good afterwards | `C134_finding_wiped`, `C134_finding_device_error` |
| stream.hpp | with `exceptions(failbit)` a short request throws after taking the bytes; the count is lost | `C134_finding_exceptions` |
| stream.hpp | a write with only `eofbit` set may be dropped without an error | `C134_finding_eof_write` |
| stream.hpp | `StringInputStream` on a string cut below its position reads outside it | `C134_finding_string_shrinks` |
| option.hpp | a vector of `int8_t`/`uint8_t` is shown as raw characters (a single variable as a number); the text never sets the same value | `C135_finding_bytes` |
| option.hpp | copying an `Option` without a parameter vector calls through a null pointer | `C135_finding_copy` |
| option.hpp | adding an option after `parse` makes all options count as not set if the table is reallocated | `C135_finding_append_after` |
| option.hpp | a vector of strings cannot be told from its text | `C135_finding_strings` |
| v128.hpp | the constructor from one word fills the other words with zeros while `set` of one word repeats it | `C136_finding_set` |
| itoa.hpp | `itobin` without padding of a negative value of 8 or 16 bits gives 32 digits, more than with padding | `C04_finding_itobin_negative` |
| itoa.hpp | `itohex` into a buffer with a negative value of a signed type reads in front of its table | `C04_finding_itohex_negative` |
| regex.hpp | `regex_search`/`regex_match` with a result accept an argument that is converted to a temporary `String`; all parts of the result dangle afterwards | `C137_finding_temporary` |
| regex.hpp | a pattern given as a `String` ends at its first NUL | `C137_finding_pattern_nul` |
| regex.hpp:360-361 | `sregex_iterator::operator*` and `operator->` return a reference into the temporary `Base(*this)`: every use of a match is undefined | `C138_finding_deref` |
| regex.hpp:355, 370-376 | the iterators accept a temporary `regex` (the standard deletes that overload) and keep a pointer to it | `C138_finding_temporary_pattern` |
| frequency.hpp:161-162 | the copy constructor and assignment are the compiler's: `idx2ref_` of a copy points into the map of the source; after the source is destroyed or cleared `getElement` on the copy is undefined (so is a copied `FMindexT` with 16-bit or 32-bit characters) | `C139_finding_copy`, `C139_finding_assign` |
| frequency.hpp:194-197 | after `append` of a new element `getElement` may use invalid iterators until `ready` | `C139_finding_append` |
| nlp/tfidf.hpp:122 | the copy constructor and assignment are the compiler's and copy `curTf_`: in a copy made inside a document the next keyword is counted in the document of the source, or is undefined if the source is gone | `C140_finding_source`, `C140_finding_source_gone` |
| file.hpp:481-494 | a link that leads nowhere counts as a free name and is replaced by `RenameFile` | `C141_finding_dangling` |
| file.hpp:481-494 | check and renaming are two steps: a file made in between by another program is lost though `RenameFile` promises not to overwrite | `C141_finding_race` |
| file.hpp:448-509 | a `std::string` with a zero byte is cut: `RemoveFile` removes another file than the one named | `C141_finding_zero` |
| sha1.hpp:187-205 | `digest_` is not initialised: before the first `digest`, `toString` and `get` return what the memory held | `C142_finding_before` |
| file.hpp:91-104 | Windows: two objects appending to one file overwrite each other's texts; on POSIX both are kept | `C143_finding_two_appenders` |
| file.hpp:91-104, 300 | `seek` on an appending object moves the next write on Windows, not on POSIX | `C143_finding_seek` |
| file.hpp:91-104 | Windows: appending to a file emptied meanwhile leaves a gap of zeros | `C143_finding_truncated` |
| time.hpp:190 | an empty format (or one that prints nothing) throws "too long" | `C144_finding_refused` |
| time.hpp:177, 190 | with `doClear` the old contents of `out` are lost although the call throws | `C144_finding_refused` |
| time.hpp:29-32, 200 | milliseconds above 999 are accepted by the constructor and give a text `fromString` refuses | `C144_finding_msec` |
| bitvector.hpp:261, 295-298 | `v.append(v)` reads freed storage whenever the capacity does not suffice | `C145_append_self` |
| bitvector.hpp:321 | `v.extract(v, pos, n)` throws for every range with pos > 0, after cutting `v`; for pos = 0 it does not check the range | `C145_finding_extract_self` |
| option.hpp:726-741 | `isSet(&v)` is false although `v` was set, if `v` has two names and the second was used | `C146_finding_isSet`, `C146_finding_alias` |
| option.hpp:630-651 | two required names of one variable must both be given | `C146_finding_must` |
| sha2.hpp:401-411 | `digest` without `clear` leaves the padding and part of the last block in the message of the object | `C147_sha256`, `C147_carry`, `C147_finding_no_clear` |
| array.hpp:26-27 | `AlignedArray<T, N>` with N < 8 or not a power of two throws `bad_alloc` for every non-empty array | `C148_finding_alignment` |
| process.hpp:54-57, 149 | `pipe` and `fcntl(FD_CLOEXEC)` are two calls: a fork of another thread in between leaves the pipe open in the other program, and the first `Start` returns only when that program ends | `C149_finding_waits` |
| process.hpp:195, quit_signal_handler.hpp:50 | a `read` that a signal interrupts counts as the end of the pipe: `Start` returns `true` for a program that is never started; `QuitSignalHandler` installs its handlers without `SA_RESTART` | `C149_finding_signal` |
| nlp/top_score.hpp:44, 50 | NaN is taken into a table that is not full and only higher numbers push it out: after `maxSize` NaN no number is ever taken in, after 5 and NaN with room for two, 3 is dropped | `C150_finding_nan`, `C150_finding_one_nan` |
| serializer.hpp:112-114 | Nothing in a file says whether integers have a fixed size: the other build reads their lowest byte and leaves the rest for the next object, silently | `C151_finding_other_build`, `C151_finding_other_build_back` |
| option.hpp:106-112 | The text after a number is ignored: `-d 1,5` is 1, `-d 0x10` is 0, `-c ab` is `a`; `3m` is 3 but `3em` is refused | `C152_finding_rest_ignored`, `C152_finding_letter_e` |
| config.hpp:103-119, 180-188 | `auto r = sec.getValue("n"); int x = r;` quotes a key that is gone when the value is not a number | `C153_finding_key_gone` |
| config.hpp:220-228 | `const std::string& s = sec.getValue("k", "abc");` dangles exactly if the key is missing | `C153_finding_default_gone` |
| config.hpp:279-283 | replacing a section leaves all pointers to its values dangling | `C153_finding_replaced` |
| quit_signal_handler.hpp:34-38, event.hpp:73-84 | `Event::wakeup` takes a mutex, so `quit()` that calls it deadlocks for good if the signal comes to the thread that holds it | `C154_finding_stuck` |
| quit_signal_handler.hpp:50, event.hpp:112-116 | pipe version: `EINTR` is ignored, so one signal can end two calls of `wait` | `C154_finding_twice` |
| log.hpp:49-50 | the time stamp is taken before the `FILE` is locked: with several threads the stamps in a file are not sorted | `C155_finding_times` |
| log.hpp:88-101, 128-129 | `OpenLogFile` while another thread logs: `fprintf` on a closed file (documented as not thread safe) | `C155_finding_closed`, `C155_finding_flush`, `C155_finding_closed_twice` |
| file.hpp:254-268 | a text of which `::write` accepts a part first (or longer than 2^31-1 bytes) can be torn by another appending object | `C156_finding_torn` |
| file.hpp:112-117 | two objects opened with `std::ios::out` alone write over each other (on Windows those with `app` too: no append access, 100-103) | `C156_finding_overwritten` |
| socket.hpp:196-200 | `it_` is a static member of a template: unordered initialization; a static object that writes to a socket may run before `SIGPIPE` is ignored | `C157_finding_static` |
| socket.hpp:183 | including the header replaces a handler for `SIGPIPE` that a static object of the program has installed before | `C157_finding_handler` |
| socket.hpp:183, process.hpp:178 | programs started by `Process` inherit the ignored `SIGPIPE` (it is not reset before `execv`) | `C157_finding_child` |
| socket.hpp:420-429, 478, 513 | `close` during a transfer of another thread: the transfer can act on a foreign descriptor with the same number (`shutdown` is safe) | `C158_finding_reused` |
| socket.hpp:508-520 | `write` reads `sd_` for each system call: if the object is given a new connection meanwhile, the rest of the text goes there | `C158_finding_split` |
| mmap.hpp:103-114 | a file that is shortened while it is mapped, or between `fstat` and `mmap`: reads below `size()` raise `SIGBUS` | `C159_finding_bus`, `C159_finding_race` |
| mmap.hpp:114 | the bytes of a `const char *get()` may change between two reads when the file is written in place | `C159_finding_changes` |
| sample/socket_smpl.cpp:66, 80 | a client that connects and sends nothing for the time limit (or resets the connection) makes `readSome` throw: the whole server ends | `C160_finding_one_client` |
| ssl.hpp:92-96, 112 | a static `ClientSocket` in another translation unit may be constructed before `ctx_`: `SSL_new(NULL)`, exception before `main` | `C161_finding_early` |
| ssl.hpp:31-45, 85-88 | a static object constructed before `ctx_` that frees a connection in its destructor frees it after the context and the library are cleaned up | `C161_finding_late` |
| csv.hpp:118-120 | after 'bad character after quote' the next `read` begins in the middle of the line: `"a"b,c` gives the row `"", "c"` after the exception | `C163_finding_middle` |
| csv.hpp:143 | the test is `==`: once the exception for a too large size has been caught, there is no limit any more | `C163_finding_limit_once` |
| sucvector.hpp:205-218 | an exception in `load` leaves the new `bitSize_` with the old blocks; `rank1` and `get` then read behind the vector | `C164_finding_size_without_bits` |
| config.hpp:338 | `load` called again on the stream after an exception starts in the global section: entries of the current section are put there | `C165_finding_section` |
| line_stream.hpp:88-89 | the size is checked before `next_` is advanced: after 'line is too long' every call throws again, a loop that skips bad lines never ends | `C166_finding_stuck` |
| line_stream.hpp:102-107 | a full buffer is taken for the end of the stream: a line of twice the limit or more makes all later calls return false although the reader has more | `C166_finding_lost` |
| option.hpp:271-275, 607-619 | `set` marks a parameter as set although the value was refused: a second `parse` returns false ('redundant') for every value | `C167_finding_retry` |
| option.hpp:271-275, 630-636 | the marks are never cleared: a second command line without a required option is accepted | `C167_finding_must` |
