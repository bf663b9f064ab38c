# A Lean 4 model of cfengine/libntech

This file is generated: the prose is `tools/design_head.md`, the table is made by `tools/design.py` from `properties.jsonl`,
`MANIFEST.json` and the imports of the Lean files.

## Layout

* `lean/Verif/Model/*.lean` – transcription of the C code, function by function; every definition cites the file and lines it models
  and says where it simplifies.
* `lean/Verif/Spec/*.lean` – small independent specifications (lists, finite maps, grammars, histories, linearizability). They do not
  use the model's functions.
* `lean/Verif/Lemmas/*.lean` – proof machinery.
* `lean/Verif/Props/*.lean` – the property theorems. Their names start with the property id (`C01_…`); beside them are
  `example`s showing that concrete non-trivial cases meet the hypotheses. Suffixes: `_partial` – proved under a restriction that the English
  property does not have; `_negated` (and some older theorems named after what happens) – a finding: the unrestricted statement, or a part of it, is
  false of the code, with a concrete witness.
* `seeded/LOG.jsonl` – wrong programs tried against the theorems. `AXIOMS.md` – the axioms of each theorem.

## Trusted base

1. **Lean's kernel** (Lean 4.33.0). The build accepts no incomplete proof; `vcheck` replays every module through the kernel.
2. **Axioms**: only `propext`, `Quot.sound` and `Classical.choice`, and not all of them everywhere; `AXIOMS.md` lists them theorem by
   theorem. No axiom is added; nothing rests on compiled evaluation (`native_decide`, `bv_decide`). `decide +kernel` is kernel computation.
3. **The reading of the C code.** The models are transcribed by hand; nothing ties them to the compiled program except the citations. Unless a file
   says otherwise: Linux, glibc, 64-bit `long`, `size_t` and pointers, 32-bit `int`, signed `char`, the C locale, assertions counted as
   failures (`none`), `HAVE_CONFIG_H` defined so `HAVE_*` conditionals follow a Linux build; POSIX variants of `#ifdef __MINGW32__` code.
4. **The environment**, where a parameter or a small machine stands for something outside the repository:
   * libc: `strtol`/`strtoumax`, `strcmp`, `memcpy`/`memmove`, `strstr`, `qsort`-free, `snprintf` of decimal and string conversions, `fgets`, `fread`/`fwrite`/`fclose`
     by the C contract (short transfers, sticky errors, flushing at any time before `fclose`), `fdopen` as in glibc, XPG `dirname` and `basename`,
     `sscanf` where a numeric parser is a parameter, `syslog` as a list of messages. Real-number printing and parsing are parameters.
   * the kernel: `read`/`write` completing as an arbitrary schedule says (short counts, EINTR, errors); `lseek`, `ftruncate`; POSIX record locks;
     a filesystem of directories, files and symbolic links with `openat`, `fstatat`, `fstat`, `fchownat`, `fchmod`, `unlink`, `rmdir`, `opendir`
     and POSIX path resolution, changed by an adversary between any two calls; Linux AF_UNIX stream sockets with `SCM_RIGHTS`.
   * PCRE: any function from texts to matches whose offsets are in range, and the documented conventions of `pcre_exec` and the name table.
   * OpenSSL: any digest functions of the documented lengths; a context digests what it was fed; `BN_bn2bin` is the big-endian form.
   * pthreads: a mutex excludes; `cond_signal` wakes at most one sleeper of the schedule's choice, `cond_broadcast` all; spurious wake-ups occur.
   * `xmalloc` and friends never fail (they end the process); where the code handles failure of `malloc` (libcompat, `StringDuplicate`-like code), it may fail.

## Modelling conventions

* A C string that is only read is the list of its bytes before the terminator; where it is changed, or where reading too far matters, it
  is an explicit memory block, and an access outside or a read of an uninitialised cell is `none`. So a theorem that says `f x = some r` says in
  particular that `f` stayed inside its memory.
* Models are total functions in the `Option` monad; `none` is undefined behaviour, a failed assertion, or the end of the process through
  `DoCleanupAndExit`/`ProgrammingError` (each file says which). Loops are structural recursion or have a fuel argument; theorems about fuelled loops give a
  sufficient fuel, which is a proof that the loop ends.
* `size_t`/`int` arithmetic is `Nat`/`Int` where wrap-around is impossible or excluded by a stated hypothesis, `BitVec`/modular arithmetic where the property is about it
  (UpperPowerOfTwo, hash functions, snprintf, digit parsing).
* `long double` (snprintf.c) is x86's: a significand of 64 bits, each operation the exact result rounded to nearest even; its exponent range is not modelled (`Verif/Model/Flt.lean`).
* Linked structures (queue.c, list.c, refcount.c) live in an explicit heap of addresses. The red-black tree is modelled twice: with zippers (Model/RBTree.lean) and, statement by statement, as nodes in a heap with parent pointers (Model/RBPtr.lean), which is proved to simulate the first. So is the hash map: as a list of buckets (Model/Map.lean) and as bucket array and items in a heap (Model/HashPtr.lean).
* Concurrency. `QueueThreads`: any number of threads, each `pthread` call and each critical section a step, signalling explicit. `ThreadedStack`, and through the
  generic mutex/condition machine of `Monitor` also `DequeThreads` and `QueueFine`: any number of threads, every single memory access, lock, unlock, wait, wake and
  signal a step, with spurious wake-ups and time-outs. `FileLock`: any number of processes, every system call a step. `GenericAt`: any number of threads, every system call a step that may fail. `SafeOpen` and its users: the environment changes the filesystem arbitrarily
  between any two system calls.

## Not modelled

Windows (`__MINGW32__`) variants other than those of passing descriptors (C151) and of file names (C153); `getloadavg.c` and other one-line or platform
replacements in libcompat; allocation failure of `xmalloc`; timing (timeouts are
nondeterministic wake-ups); durability across machine crashes; data races on the global log level; `errno` (except where a file says so). Coverage of the C functions is about four
fifths of the lines of libutils and libcompat that contain functions.

## Findings

Every place where the code does not do what its documentation or name says, met while proving, is a theorem with a witness. Most notable: RBTreeCopy loses a
pair (C13), PushN loses wake-ups (C15), JSON keys are not escaped and strings are unescaped twice (C24), JsonCompare never looks inside containers (C27), JsonCopy
truncates integers (C28), IPv6 parsing loses groups (C33), UpperPowerOfTwo fails above 2^32 (C36), CSV parser reads uninitialised memory (C61), a long Mustache delimiter
overflows (C81), nested Mustache sections resolve names in the wrong scope (C83), search and replace overflows its result (C103), safe_chown follows a link and then changes another file (C106),
"rw" empties the file and fails (C109), an unreadable file hashes like any other unreadable file (C114), a second passed descriptor leaks (C118), matches with ten or more groups
are reported as empty (C119), `%Le` of 0.001 prints "10.000000e-04" and `%f` of 1e20 fails (C132),
a JSON element put into an object under its own name reads freed memory (C133), an unterminated string in a JSON array leaks the array (C134), IPAddressNewHex reads /proc/net/tcp6 with reversed words and leaves the port uninitialised (C135), the replacement mkdtemp closes standard input (C138), closefrom on HP-UX closes everything (C137), getnameinfo asks for the service of the byte-swapped port (C139), a home directory that is too long gives a null pointer once and a truncated path ever after (C142), a copy of a threaded container that fails leaks its array, a new stack that fails its mutex (C147), BufferSearchAndReplace leaks the compiled job when matching fails and reports every bad pattern as fine (C148), a set0 function given the number already there frees it and keeps it (C149), a program name with a blank is cut in the title of its manual page and options without a short form put a raw byte into it (C150), receiving a socket on Windows fails when a text comes with it (C151), `/a/**/b` does not find `/a/b` (C152), MapNameForward returns NULL (C153), a stream that takes nothing makes fprintf return 0 and xsnprintf writes into a buffer of size 0 (C154), a tree without comparison confuses keys 4 GiB apart (C156), a file system that reports no name limit gives a directory buffer that is too small (C158), a process on Windows waits for the lock it holds itself (C160), mapping a name in place under Cygwin overflows (C153), clearing a tree hands null pointers to the destructors (C162), a tree iterator made on an empty tree delivers a null pair after a put (C163), a hash map iterator reads freed memory when the item it will deliver next is removed, repeats or loses pairs when the map grows and ends early when it shrinks (C166), the statistics of a hash map call bucket 0 empty (C167), SeqStringWriteFile returns true when an output call failed and SeqStringReadFile never closes its descriptor (C168), short system messages on Windows are written before their array and strerror cuts long numbers (C170), a string of 2^32 bytes counts as empty (C173), `ABS(1 - 3)` is -4 and `KIBIBYTE(1 + 1)` is 1025 (C174), a sleep of 2^32 milliseconds on Windows returns at once (C175), dirfd reports an error as descriptor ENOTSUP (C176), drand48 can give 1 where RAND_MAX is large (C177), getloadavg scans a buffer without terminator and on NetBSD reads past its array (C178), lines of two threads get mixed when they carry time stamps, a prefix or colours, and a change of the global level can split the levels of a new thread (C180), a function registered while another thread is about to exit is never run (C181), destroying a sequence and its soft copy destroys the items twice and appending a sequence to itself never ends (C182), SeqShuffle does not put the random state back (C183), two threads asking for a directory for the first time can see a cut path (C184), a process that is refused memory while registering a cleanup function or inside one hangs instead of exiting (C185), a misplaced quote at the end of a CSV line is accepted and empties the field (C186), a copied stack destroys its items a second time and an iterator moved after its ring buffer was cleared reads outside the array (C187), appending a buffer to itself reads freed memory when it grows (C188); writing a JSON object reorders it under a const pointer (C189), two threads that write a document for the first time corrupt it (C190).

## Properties

| id | property | Props file | modelled and proved how | status and limits |
|---|---|---|---|---|
| C01 | Ring buffer keeps exactly the newest elements, oldest first | RingBuffer | slots, end, length; refinement to the last min(n, capacity) elements of the history, by induction | proved. Full statement; simplifications as said in the comments of the model and in DESIGN.md. |
| C02 | Queue is FIFO | Queue | heap of doubly linked nodes; abstraction to a list, refinement over every history | proved. Includes the undefined dequeue on an empty queue as a separate theorem. |
| C03 | Stack is LIFO for every growth history | Stack | array, size, capacity; refinement to a list over every history | proved. Full statement; simplifications as said in the comments of the model and in DESIGN.md. |
| C04 | Seq is a growable list | Seq | array, length, capacity, memmove as slot copy; refinement to lists | proved. Full statement; simplifications as said in the comments of the model and in DESIGN.md. |
| C05 | SeqSort sorts | Seq | the recursive quicksort on the array; permutation and sortedness by well-founded induction | proved. Full statement; simplifications as said in the comments of the model and in DESIGN.md. |
| C06 | SeqBinaryLookup is exact on sorted sequences | Seq | the loop; invariant on the bounds | proved. Full statement; simplifications as said in the comments of the model and in DESIGN.md. |
| C07 | Map is a finite map over every history | Map | 14-slot array map, hash buckets, conversion between them; refinement to a finite map, log of destroyed handles | proved. Full statement; simplifications as said in the comments of the model and in DESIGN.md. |
| C08 | Map destroys each key and value exactly once | Map | 14-slot array map, hash buckets, conversion between them; refinement to a finite map, log of destroyed handles | proved. Full statement; simplifications as said in the comments of the model and in DESIGN.md. |
| C09 | Set behaves as a mathematical set | Set | 14-slot array map, hash buckets, conversion between them; refinement to a finite map, log of destroyed handles | proved. Full statement; simplifications as said in the comments of the model and in DESIGN.md. |
| C10 | RBTree is a finite map over every history | RBTree | zipper red-black tree with the code's rotations; ordering, balance and contents invariants by induction over histories | proved. Full statement; simplifications as said in the comments of the model and in DESIGN.md. |
| C11 | RBTree iteration is sorted and complete | RBTree | zipper red-black tree with the code's rotations; ordering, balance and contents invariants by induction over histories | proved. Full statement; simplifications as said in the comments of the model and in DESIGN.md. |
| C12 | RBTree stays balanced | RBTree | zipper red-black tree with the code's rotations; ordering, balance and contents invariants by induction over histories | proved. Full statement; simplifications as said in the comments of the model and in DESIGN.md. |
| C13 | RBTreeCopy yields an equal tree | RBTree | zipper red-black tree with the code's rotations; ordering, balance and contents invariants by induction over histories | partial. The full claim is false of the code: an odd selection of three or more loses its largest pair, and copying an empty tree is undefined. Both are proved as negative theorems; the remaining cases are proved. |
| C14 | Threaded queue delivers each item once, in order | ThreadedQueue | critical sections on a circular array; refinement to a list over every history, threads by interleaving the sections | proved. Full statement; simplifications as said in the comments of the model and in DESIGN.md. |
| C15 | Threaded queue: no lost wake-up | ThreadedQueue | transition system of threads, mutex and condition variables; inductive invariant relating sleepers, signals and items | partial. The full claim is false of the code (PushN signals once for several items); the negative theorem exhibits the schedule, the positive theorem covers single-item pushes and non-zero PopN. |
| C16 | Threaded deque behaves as a double-ended queue | ThreadedQueue | critical sections on a circular array; refinement to a list over every history, threads by interleaving the sections | proved. Full statement; simplifications as said in the comments of the model and in DESIGN.md. |
| C17 | List copies are isolated (copy on write) | List | heap of nodes, lists and reference counts; separation-style representation invariant, simulation of the abstract lists | proved. Holds for lists with compare and copy callbacks and non-NULL payloads, for lists without a copy function (copying refused) and for lists without either callback (elements matched by address); the negative theorems show what the code does outside: removal by address on a shared list, NULL payloads, and iterators across a detach. |
| C18 | Buffer contents and bounds | Buffer | allocation with capacity and used; refinement to a byte list per mode | partial. Contents, sizes and bounds are proved for every history in both modes; NUL termination in C-string mode is proved for histories that stay in C-string mode (partial). Negative theorems: switching a full binary buffer to C-string mode leaves it unterminated, appending a NUL char, zero capacity. |
| C19 | String writer concatenates | Buffer | growing allocation; refinement to concatenation | proved. Full statement; simplifications as said in the comments of the model and in DESIGN.md. |
| C20 | CSV records round trip | Csv | parser automaton and writer over bytes; structural induction | proved. Proved for every non-empty CRLF-terminated record, and for unterminated records except those with an empty last field after a quoted one, where a theorem shows the code returns the wrong field. |
| C21 | CSV multi-line reader splits at record boundaries | Csv | parser automaton and writer over bytes; structural induction | proved. Full statement; simplifications as said in the comments of the model and in DESIGN.md. |
| C22 | XML text escaping is injective and safe | Xml | escape functions; induction, decoding as left inverse | proved. Character data (XmlContent, XmlTag values) and start tags with attributes are proved; negative theorems show attribute values are not escaped and that -- is copied into comments. |
| C23 | JSON string escaping round trips | Json | escape and unescape; induction | proved. Full statement; simplifications as said in the comments of the model and in DESIGN.md. |
| C24 | JSON write then parse gives an equal document | JsonWrite | JSON tree, writer and recursive parser over bytes; mutual structural induction, grammar as an inductive relation | partial. False as stated: keys are written without escaping, the parser unescapes strings twice, and reals are cut at 31 characters (three negative theorems). Proved for every other element, with the numbers the API makes. |
| C25 | JSON parsing is total and stays in bounds | JsonEnd, JsonParse | JSON tree, writer and recursive parser over bytes; mutual structural induction, grammar as an inductive relation | partial. False for a text ending in a backslash inside a string, where the parser steps over the terminator (negative theorem). Every text is settled: with an even number of backslashes at the end (or none) it is proved (C25_parse_total_even); with an odd number the parser leaves the text exactly when the text is the beginning of one of which it accepts a part reaching beyond it (C25_leaves_the_text_exactly). |
| C26 | JSON objects are maps with unique keys | Json | JSON tree, writer and recursive parser over bytes; mutual structural induction, grammar as an inductive relation | proved. Full statement; simplifications as said in the comments of the model and in DESIGN.md. |
| C27 | JsonCompare is zero only on equal documents | JsonOps | JSON tree, writer and recursive parser over bytes; mutual structural induction, grammar as an inductive relation | partial. False as stated: comparison never looks inside containers (both iterators run over the same element). The exact condition for a zero result is proved, with a witness of two different documents that compare equal. |
| C28 | JsonCopy is a faithful deep copy | JsonCopyAll, JsonOps | JSON tree, writer and recursive parser over bytes; mutual structural induction, grammar as an inductive relation | partial. False for integers outside int (truncated) and outside long (exit); proved for all documents whose integers are ints and whose reals print back to their text. C28_copy_exactly says what the copy is for all integers in the range of long and all reals. |
| C29 | JsonMerge semantics | JsonOps | JSON tree, writer and recursive parser over bytes; mutual structural induction, grammar as an inductive relation | proved. Under the same conditions on numbers as C28, because merging copies. |
| C30 | String sequence serialization round trips | StrSeq | length-prefixed serializer over explicit memory; induction, schedules of reads for files | partial. The claim is false for strings of 10^9 bytes or more (the prefix has ten columns): negative theorem. The round trip is proved for all shorter strings. |
| C31 | String sequence deserialization is memory safe | StrSeq | length-prefixed serializer over explicit memory; induction, schedules of reads for files | proved. Full statement; simplifications as said in the comments of the model and in DESIGN.md. |
| C32 | IPv4 parsing accepts exactly valid addresses | Ip | the parser automata run over the text; simulation of the grammar, exact accepted language for IPv4 | partial. The claim is false as stated: C32_parse_iff characterises exactly what is accepted (dotted quads with optional port, plus texts ending in one stray character, C32_stray_character_accepted); the partial theorem is the claim for texts ending in a digit. |
| C33 | IPv6 parsing accepts exactly valid addresses | Ip6, Ip6Exact | the parser automata run over the text; simulation of the grammar, exact accepted language for IPv4 | partial. The claim is false as stated (finding theorems: groups lost, reversed groups in brackets, port form loses groups, seven groups refused, malformed accepted). C33_accepted_exactly settles every text: it is accepted iff it is one of the nine listed forms, with the numbers and port given there. Also proved: memory safety for every text, full and bracketed forms, compressed forms up to a bound on the groups, and refusal of every text with a character other than 0-9, a-f, ':', '[' and ']' (so also A-F) and of every text with two separate '::'. |
| C34 | IP comparison is a strict weak order compatible with equality | IpObj | case analysis over the comparison functions | proved. Includes the finding that a NULL argument breaks the order. |
| C35 | IP printing round trips | IpObj | the parser automata run over the text; simulation of the grammar, exact accepted language for IPv4 | proved. The port is not printed, so the re-parsed address has port 0; IPAddressIsEqual ignores ports. |
| C36 | UpperPowerOfTwo | Misc, PowerOfTwo | 64-bit arithmetic; bit-level argument | partial. Holds for arguments up to 2^32; a negative theorem shows the 64-bit failure, and C36_right_exactly says for which arguments up to 2^63 the result is right. |
| C37 | Bounded string copy/append never overflow and truncate correctly | StrCopy | destination as memory; induction over the copy loop | proved. Full statement; simplifications as said in the comments of the model and in DESIGN.md. |
| C38 | Search and replace | Replace | string functions over byte lists or memory; induction | proved. Full statement; simplifications as said in the comments of the model and in DESIGN.md. |
| C39 | Substring follows its documentation | Substring, SubstringAll | string functions over byte lists or memory; induction | partial. The full claim is false of the code; negative theorems: one-character slices give NULL, a negative start with a positive length returns the whole tail, dropping more than the length returns the string, a start before the beginning reads out of bounds, and so does a length of two or more for the empty string. C39_every_call settles every string, start and length. |
| C40 | Integer parsing | StrNum, StrNumExt | string functions over byte lists or memory; induction | proved. Full statement; simplifications as said in the comments of the model and in DESIGN.md. |
| C41 | Tokenising | Tokens | string functions over byte lists or memory; induction | proved. Full statement; simplifications as said in the comments of the model and in DESIGN.md. |
| C42 | Trimming | Trim | string functions over byte lists or memory; induction | proved. Full statement; simplifications as said in the comments of the model and in DESIGN.md. |
| C43 | Case conversion | CaseAll, Trim | string functions over byte lists or memory; induction | partial. ToUpperStrInplace is proved on the ASCII domain (the other case mappings for all strings); C43_toUpperStr_any says what the code does to every string: a blank becomes a NUL, other bytes are shifted by 32. |
| C44 | CanonifyName | Trim | string functions over byte lists or memory; induction | proved. Full statement; simplifications as said in the comments of the model and in DESIGN.md. |
| C45 | Version comparison | Env | integer components; case analysis | proved. A further theorem shows that version equality is not transitive, because missing components are not compared. |
| C46 | FullWrite/FullRead under arbitrary short I/O | Io | system calls completing as an arbitrary schedule; induction over the schedule | proved. FullWrite and FullRead against every schedule of short transfers and errors, with a termination theorem. |
| C47 | FileReadFromFd returns the file contents | Io | system calls completing as an arbitrary schedule; induction over the schedule | partial. C47_any_file settles every file, NUL bytes included. Proved for files without NUL bytes; a theorem shows that a NUL byte truncates the returned data. |
| C48 | Path and string joining | Path | string functions over byte lists or memory; induction | proved. Full statement; simplifications as said in the comments of the model and in DESIGN.md. |
| C49 | Escape/unescape of characters | Escape | string functions over byte lists or memory; induction | partial. The full claim is false of the code: a negative theorem shows the destination overflow; the positive theorem covers the inputs that fit. |
| C50 | safe_open follows only trusted symlinks | SafeOpen | abstract POSIX filesystem, adversary step between any two system calls; invariant over the run, exact result on quiet filesystems | partial. With others changing the filesystem arbitrarily between system calls: every component was looked at, opened and looked at again and satisfies the ownership rule as seen (effective uid 0 or 1); descriptors never leak; only the returned file is created or truncated. Undisturbed: trusted paths open the denoted object, untrusted ones give ENOLINK. As stated the property is false: the check and the open race, only the first of nested links is checked, the uid is stored in a bool, and flags are ignored for / (negative theorems with witnesses). |
| C51 | Cleanup functions run once, last registered first | Env | registered list; induction | proved. Holds when no cleanup function registers another one; a theorem shows that doing so deadlocks. |
| C52 | Hash printing | Hash | string functions over byte lists or memory; induction | proved. Full statement; simplifications as said in the comments of the model and in DESIGN.md. |
| C53 | Environment-file lines | Env | string functions over byte lists or memory; induction | partial. Proved for every line except values ending in a lone backslash; C53_reads_past_the_end_exactly settles those: in a block of just the line's size the code leaves the block on exactly these lines (lines that end in white space excepted there, where what it reads is the rest of the line). |
| C54 | Reference counting | List | heap of nodes, lists and reference counts; separation-style representation invariant, simulation of the abstract lists | proved. Full statement; simplifications as said in the comments of the model and in DESIGN.md. |
| C55 | UnsignedModulus is the mathematical modulus | Misc | 64-bit arithmetic; bit-level argument | proved. Full statement; simplifications as said in the comments of the model and in DESIGN.md. |
| C56 | String sets split and join at delimiters | Set | through the map model; induction over the text or the array | proved. Full statement; simplifications as said in the comments of the model and in DESIGN.md. |
| C57 | RBTreeEqual compares contents | RBTree | zipper red-black tree with the code's rotations; ordering, balance and contents invariants by induction over histories | proved. Full statement; simplifications as said in the comments of the model and in DESIGN.md. |
| C58 | RBTree destroys each pair exactly once | RBTree | zipper red-black tree with the code's rotations; ordering, balance and contents invariants by induction over histories | proved. Full statement; simplifications as said in the comments of the model and in DESIGN.md. |
| C59 | Nobody sleeps in WaitEmpty next to an empty queue | ThreadedQueue | transition system of threads, mutex and condition variables; inductive invariant relating sleepers, signals and items | proved. Full statement; simplifications as said in the comments of the model and in DESIGN.md. |
| C60 | BufferCompare is lexicographic order | Buffer | allocation with capacity and used; refinement to a byte list per mode | proved. Full statement; simplifications as said in the comments of the model and in DESIGN.md. |
| C61 | CSV parsing of arbitrary text is memory safe | Csv, CsvUninit | parser automaton and writer over bytes; structural induction | partial. Partial: texts containing quote, one blank, separator are excluded; a theorem shows that the code reads uninitialised memory there. C61_uninitialised_read_negated: so it does for every text with such a place after a field that is longer than all before it. |
| C62 | HTML rendering in mustache templates reads back | Xml | escape functions; induction, decoding as left inverse | proved. Full statement; simplifications as said in the comments of the model and in DESIGN.md. |
| C63 | Copy-or-hash keeps long strings distinguishable | Hash | string functions over byte lists or memory; induction | proved. Full statement; simplifications as said in the comments of the model and in DESIGN.md. |
| C64 | Base name and quoting of paths | Hash | string functions over byte lists or memory; induction | proved. Full statement; simplifications as said in the comments of the model and in DESIGN.md. |
| C65 | Prefix and suffix tests | Path | string functions over byte lists or memory; induction | proved. Full statement; simplifications as said in the comments of the model and in DESIGN.md. |
| C66 | String comparison is a consistent order | StrCompare | string functions over byte lists or memory; induction | proved. Full statement; simplifications as said in the comments of the model and in DESIGN.md. |
| C67 | Character replacement | Escape | string functions over byte lists or memory; induction | proved. Full statement; simplifications as said in the comments of the model and in DESIGN.md. |
| C68 | Character class tests | StrCompare | string functions over byte lists or memory; induction | proved. Full statement; simplifications as said in the comments of the model and in DESIGN.md. |
| C69 | String sequences survive a file round trip under any chunking | StrSeq | length-prefixed serializer over explicit memory; induction, schedules of reads for files | proved. Two negative theorems: malformed and short prefixes lead to undefined behaviour. |
| C70 | Splitting a text into a string sequence | StrSeq | length-prefixed serializer over explicit memory; induction, schedules of reads for files | proved. Full statement; simplifications as said in the comments of the model and in DESIGN.md. |
| C71 | JSON5 escaping denotes the data | Json | escape and unescape; induction | partial. The bytes denoted are always right in a grammar without JSON5's lookahead rule; that rule (no decimal digit after \0) is violated for a NUL followed by a digit (negative theorem). |
| C72 | Every RFC 8259 text is parsed to its document | JsonRfc, JsonText | JSON tree, writer and recursive parser over bytes; mutual structural induction, grammar as an inductive relation | partial. Accepted and denoted correctly for every text whose string values contain no backslash before one of the escape letters; false otherwise (unescaped twice), and malformed texts are accepted (negative theorems). Every text of the RFC, with all escapes, is accepted (C72_every_text_accepted) and read with LibString for its strings (C72_every_text_is_read); \u escapes are kept as written (negative theorem). |
| C73 | JSON output is canonical | JsonCanon | JSON tree, writer and recursive parser over bytes; mutual structural induction, grammar as an inductive relation | proved. Full statement; simplifications as said in the comments of the model and in DESIGN.md. |
| C74 | Lists leak nothing and destroy nothing twice | List | heap of nodes, lists and reference counts; separation-style representation invariant, simulation of the abstract lists | proved. Full statement; simplifications as said in the comments of the model and in DESIGN.md. |
| C75 | A list iterator is a cursor over the list | List | heap of nodes, lists and reference counts; separation-style representation invariant, simulation of the abstract lists | proved. Full statement; simplifications as said in the comments of the model and in DESIGN.md. |
| C76 | The replacement search functions find the first or last occurrence | Compat | replacement loops over byte lists or memory; induction | partial. memmem, strstr and strcasestr miss the empty needle in an empty haystack; strrstr never finds an occurrence at offset 0 (negative theorems). Everything else is proved. |
| C77 | The replacement copy and length functions copy exactly and stay in bounds | Compat | replacement loops over byte lists or memory; induction | proved. Full statement; simplifications as said in the comments of the model and in DESIGN.md. |
| C78 | Replacement case-insensitive comparison is a comparison of the lower-cased strings | Compat, StrCaseAll | replacement loops over byte lists or memory; induction | partial. The order agrees for ASCII strings only: bytes from 0x80 on sort before all others because char is signed (negative theorem). Equality, antisymmetry and the length limit hold for all strings; C78_strcasecmp_order_all gives the order of all strings. |
| C79 | The replacement strsep splits at every separator | Compat | replacement loops over byte lists or memory; induction | proved. Full statement; simplifications as said in the comments of the model and in DESIGN.md. |
| C80 | The replacement getline returns every line of the stream | Compat | replacement loops over byte lists or memory; induction | proved. A stream error and lines of SSIZE_MAX bytes are not modelled; allocation succeeds. |
| C81 | Rendering a Mustache template is memory safe and ends for every template and all data | Mustache | recursive renderer over offsets in the template and paths in the data; well-founded induction, evaluation of an independent syntax tree | partial. Templates that change the delimiters ({{=) and have a blank-free word of ten or more bytes are excluded: a ten-byte delimiter overflows its array (negative theorem). Order of object members may change because serialising sorts. |
| C82 | A Mustache template renders to what its tree of texts, variables, comments and sections evaluates to | Mustache | recursive renderer over offsets in the template and paths in the data; well-founded induction, evaluation of an independent syntax tree | proved. Default delimiters, output buffer in C-string mode. Serialising objects whose members are not in key order reorders them during iteration (negative witness). The text of a real number is the C library's (a parameter). |
| C83 | Names in a Mustache template are resolved in the sections that lexically enclose them | Mustache | recursive renderer over offsets in the template and paths in the data; well-founded induction, evaluation of an independent syntax tree | partial. False in general: a section over a list leaves the list on the scope stack, so the enclosing section's closing tag removes that instead of its own element (negative theorems). Proved (C83_nested_lexical_partial) for sections rendered once nested anyhow, also in sections over lists, and (C83_listless_lexical) for every template over data without lists that does not use @. |
| C84 | Escaped variables cannot inject markup; other text is copied verbatim | Mustache | escape functions; induction, decoding as left inverse | proved. Full statement; simplifications as said in the comments of the model and in DESIGN.md. |
| C85 | inet_pton/inet_ntop replacement: IPv4 | Inet | automata over bytes; induction, finite tables by kernel computation lifted to all words | proved. Both directions for all strings and addresses. |
| C86 | inet_ntop replacement: IPv6 text | Inet | automata over bytes; induction, finite tables by kernel computation lifted to all words | proved. Canonical text for all addresses; bestRun checked over the 256 zero patterns by kernel computation and lifted to all words. |
| C87 | inet_pton replacement: IPv6 text | Inet | automata over bytes; induction, finite tables by kernel computation lifted to all words | proved. Exact accepted language, all RFC 4291 text forms, round trip; deviations exhibited as theorems. |
| C88 | JsonParse accepts exactly one grammar | JsonLoose | JSON tree, writer and recursive parser over bytes; mutual structural induction, grammar as an inductive relation | proved. Exactness in both directions (soundness by induction on the parser, completeness by induction on the grammar), rejection of everything else, unambiguity. No lookup function. Strings ending in a backslash are covered by C25. |
| C89 | Sparse copies | Sparse | system calls completing as an arbitrary schedule; induction over the schedule | proved. Kernel file model (data, offset; write, lseek, ftruncate), arbitrary schedules and kill points. fsync only as a call that may fail; durability across a machine crash is not modelled. The copy theorem is for a fresh destination; C89_needs_fresh_destination shows what happens otherwise. |
| C90 | File_Copy is all or reported | FileCopy | stdio contract as schedule; induction | proved. stdio streams by their contract (short transfers, sticky errors, arbitrary flushing); two open files identified by number, so aliasing is expressible; opening is the subject of C73 and following. |
| C91 | Reading a file line by line | FileCopy | stdio contract as schedule; induction | proved. Built on the getline model of C80. Lines with NUL bytes are cut as the header documents. |
| C92 | File locks exclude other processes | FileLock | transition system of any number of processes over a record-lock kernel; inductive invariant | proved. Transition system of any number of processes over a POSIX record lock model; inductive invariant tying the kernel's lock table to what the calls returned. Threads inside one process and Windows are not modelled. Two findings as theorems (C92_two_locks, C92_descriptor_leak for every n). |
| C93 | JsonSelect follows the path | JsonApi | functions on JSON trees; structural induction, simulation of cursors | proved. Induction on the path for API-built documents; C93_bad_index_exits is the finding that an empty or huge all-digit position ends the process, for every array. |
| C94 | JsonWalk visits everything once, in document order | JsonApi | functions on JSON trees; structural induction, simulation of cursors | proved. Structural induction over the nested element type; visitors are arbitrary functions over an arbitrary state but do not change the tree. |
| C95 | A JSON iterator is a cursor over the children | JsonApi | functions on JSON trees; structural induction, simulation of cursors | proved. Simulation between iterator and cursor for every list of calls. The current type before the first step is undefined behaviour (theorem). |
| C96 | A JSON array is a list | JsonApi | array, length, capacity, memmove as slot copy; refinement to lists | proved. Refinement through the model of sequence.c. |
| C97 | JSON primitives read back what was put in | JsonApi | functions on JSON trees; structural induction, simulation of cursors | proved. Through C40 (strtol) and the decimal printer. |
| C98 | snprintf never writes outside the buffer, always terminates it, and returns the length of the whole text | Snprintf | the directive automaton writing into a block; induction over the format, specification of each conversion from C99 | proved. All conversions, also those of floating-point numbers; len is unbounded. |
| C99 | snprintf's text is the one C99 prescribes | Snprintf | the directive automaton writing into a block; induction over the format, specification of each conversion from C99 | partial. Partial: proved for d i u o x X c s with all flags, widths, precisions and modifiers in the C locale, except the listed deviations of the code, each shown by a finding theorem (precision 0 of value 0, %c with width, least intmax_t, reading past the precision, separators with precision, '#' with precision INT_MAX). %n, too large fields and thousands separators (with a width) have theorems of their own. %p has a theorem of its own (C99_pointer). Floating point: C132. |
| C100 | asprintf returns the whole text in a block of its size | Snprintf | the directive automaton writing into a block; induction over the format, specification of each conversion from C99 | proved. malloc may fail. |
| C101 | getopt reads a command line left to right | Getopt | static variables as a state; simulation of a left-to-right reading of the vector, permutation invariant | partial. Proved for every vector; hypotheses: no option is declared as byte 255 or long value -1 (it would be taken for the end), and with a leading '+' or '-' in the option string that character is not used as an option and no ':' follows it, because the code skips the character in the first call only (negative theorems). |
| C102 | getopt's permutation loses nothing and keeps order | Getopt | static variables as a state; simulation of a left-to-right reading of the vector, permutation invariant | proved. Permutation by every single call from any state; order of options and operands for option strings without '+' or '-' in front. |
| C103 | Search and replace rewrites exactly the matches | PcreWrap | job of literal and group pieces, PCRE as parameter; induction over the matches | partial. The PCRE library is a parameter constrained by its documented contract. Proved for replacements the code handles (at most 32 references, to groups up to 32, no NUL, no $` or $'); the unrestricted statement is false: findings C103_* exhibit uninitialised bytes, an overflow of the result, an array overrun, a poisoned reference, and empty matches found twice. |
| C104 | Replacement texts can be written literally | PcreWrap | job of literal and group pieces, PCRE as parameter; induction over the matches | proved. C104_plain and C104_quoted are about the specified syntax, which C103 ties to the code; C104_plain_replaced and C104_no_match are about the code. |
| C105 | A list's mutable iterator is a cursor that edits the sequence | ListMut | heap of nodes, lists and reference counts; separation-style representation invariant, simulation of the abstract lists | proved. The hypothesis that the list is not shared is needed and met by every list written to since it was copied (C105_written_lists_are_unshared). Findings: on a shared list the first edit gives the list new nodes while the iterator stays on the old ones, so Remove frees the copy's node (C105_shared_list_destroys_the_copy) and Prepend leaves the list on borrowed nodes (C105_shared_list_borrows_the_copys_nodes); HasNext and HasPrevious of an invalidated iterator read a freed node (C105_has_next_reads_freed_node). |
| C106 | safe_chown and safe_lchown change the owner of the file the path leads to, safely | SafeChown | abstract POSIX filesystem, adversary step between any two system calls; invariant over the run, exact result on quiet filesystems | partial. As stated false for safe_chown: it finds the directory of what a link leads to and then looks there for the name of the link itself, so another file is given away or ENOENT is reported (C106_link_leaf_negated). Proved: at most one object changed, in a directory reached as checked, under the path's own last name; descriptors restored; on quiet filesystems a trusted directory part makes both succeed on what is not a link (safe_lchown also on links), untrusted links and missing names are refused with nothing changed. Effective uid 0 or 1, as for C50. |
| C107 | safe_chmod sets the mode of the file the path leads to, safely | SafeChown | abstract POSIX filesystem, adversary step between any two system calls; invariant over the run, exact result on quiet filesystems | partial. The same finding: through a link, existence and the FIFO test are looked up under the link's own name in the target's directory (C107_link_leaf_negated). Effective uid 0 or 1. Modes are not part of the filesystem model; which object's mode was set, and at which system call, is. |
| C108 | DeleteDirectoryTree deletes what is below the directory and nothing else | DelTree | abstract POSIX filesystem, adversary step between any two system calls; invariant over the run, exact result on quiet filesystems | partial. Exact on quiet filesystems for a trusted path (euid 0 or 1, no trailing slash, paths below 4096 bytes, enough descriptors). As stated false: a path that leads through the tree itself (/t/e/..) reports success with entries left (C108_path_through_tree_negated); the owner of a directory in the tree can make root remove a file outside it (C108_race_negated); paths are cut at 4095 bytes without a check (C108_truncated_path_negated). |
| C109 | safe_fopen opens the file for what the mode says; safe_creat and safe_chdir | Fopen | abstract POSIX filesystem, adversary step between any two system calls; invariant over the run, exact result on quiet filesystems | partial. Effective uid 0 or 1, as for C50. Outside the standard modes: other characters end the program before anything is touched; letters in the wrong place are accepted by the mode loop, so 'rw' empties the file and then fails with EINVAL (C109_rw_empties_the_file_negated). fdopen is glibc's; modes longer than five characters are not covered. |
| C110 | A log message goes exactly where its own thread's levels and hook say | Logging | per-thread contexts in a state, calls as steps; induction over the history | partial. Calls of different threads run one after another (the unsynchronised read of the global level is not modelled as a race). Levels 0 to 6; Log(LOG_LEVEL_NOTHING) ends the program and WouldLog says true for it (C110_nothing_ends_the_program_negated). LogRaw is proved when not only the hook's level asks for the message: in that case it does not call the hook although Log would (C110_raw_skips_the_hook_negated). Syslog lines are cut at 4095 bytes. |
| C111 | LogLevelFromString accepts the prefixes of the level names | Logging | per-thread contexts in a state, calls as steps; induction over the history | proved. Full statement; simplifications as said in the comments of the model and in DESIGN.md. |
| C112 | LogEnableModulesFromString enables the modules listed and restores the string | Logging | per-thread contexts in a state, calls as steps; induction over the history | proved. Finding: modules listed before 'help' are enabled although help is said to enable nothing (C112_help_after_others_negated). |
| C113 | Readable byte counts are the count rounded down to the printed unit | Logging | 64-bit arithmetic; bit-level argument | proved. Full statement; simplifications as said in the comments of the model and in DESIGN.md. |
| C114 | Digests are of exactly the data, however it is read | HashApi | OpenSSL as parameter, reads as schedule; induction over the reads | partial. OpenSSL is a parameter (digest functions of the documented lengths; update appends). As stated false for failing reads: HashNewFromDescriptor hands read's -1 to EVP_DigestUpdate as a length (C114_read_error_overread_negated); HashFile silently gives the digest of the part read before an error (C114_file_read_error_negated), and zeros for files it cannot open, which match each other (C114_unreadable_files_match_negated). Everything else is proved for reads that succeed. |
| C115 | Hashes compare, copy and are named consistently | HashApi | OpenSSL as parameter, reads as schedule; induction over the reads | proved. Full statement; simplifications as said in the comments of the model and in DESIGN.md. |
| C116 | The digest of a key is that of its modulus and exponent | HashApi | OpenSSL as parameter, reads as schedule; induction over the reads | proved. Keys whose modulus or exponent is NULL are passed on to BN_bn2bin, which does not accept them; not covered. |
| C117 | The threaded stack is linearizable under every interleaving of memory accesses | ThreadedStack | every memory access a step of a thread; forward simulation to an atomic stack, linearization points shown explicitly | proved. Model at the granularity of single memory accesses, the mutex being an instruction of each function; linearizability defined in Spec/Linearizable.lean without reference to the model. Creation and destruction of the stack are outside the concurrent part. |
| C118 | Open files passed over a local socket arrive in order, each with its own text, and none leaks | PassFile | queue of socket messages with attached files; simulation of a first-in first-out channel | partial. The channel property is proved in full for texts of at most 1023 bytes (the documented limit). Against an arbitrary peer (partial): findings with witnesses - a second attached descriptor leaks (release build), texts over 1023 bytes are not truncated as documented but spill into the next text, at verbose level an unterminated message is read past the buffer. The MinGW implementation is not modelled. |
| C119 | Regular expression matching reports the match, the groups and their names | RegexMatch | PCRE as parameter; array bounds and induction over the groups | partial. PCRE is a parameter (what it finds in a text; its documented ways of reporting it). Partial because of ten or more groups: see C119_ten_groups_negated. |
| C120 | Key-value files are given line by line to the user function | KeyValue | fgets on a 1024-byte array; induction over the lines | partial. C120_any_text settles every text (any line length, NUL bytes, read errors anywhere) against a description of the pieces read. The claim as stated is partial: lines of at most 1023 bytes, no NUL bytes; longer lines are split (finding C120_long_line_negated). sscanf is a parameter for the numeric variant. |
| C121 | Sets of strings and JSON arrays convert into each other | SetJson, SetJsonAll | through the map model; induction over the text or the array | partial. Partial because an array nested as first item is accepted (acknowledged in the source, C121_nested_array_negated); C121_every_element settles every JSON element. |
| C122 | YAML texts are read as the JSON documents they stand for | Yaml | libyaml as its event sequence; induction over the document tree, stack of open containers | partial. libyaml is represented by the event sequence it delivers. Partial: plain scalars that begin with a number and go on (GoodValue) and integers that JsonCopy changes are excluded - these are findings with witnesses: leading_number, integers (3000000000 becomes negative, 1e5 ends the process), bool_tag, alias, empty document (read outside the array), error (a syntax error is not reported), complex_key (ends the process). |
| C123 | ENV files are read as objects of their last definitions | DataFile | composition of the line, record and whole-file readers with the parsers; induction over the lines | partial. Partial: lines whose value ends in a lone backslash are excluded (they make ParseEnvLine read beyond the line, finding of C53). |
| C124 | CSV files are read as the array of their records | DataFile | composition of the line, record and whole-file readers with the parsers; induction over the lines | partial. C124_written_file has no such restriction; for arbitrary files partial: no quote followed by one blank and a separator (finding of C61). |
| C125 | Data files are read according to their kind, completely or not at all | DataFile | composition of the line, record and whole-file readers with the parsers; induction over the lines | partial. Partial as the parts it is made of: no NUL bytes (C47), JSON by the grammar the parser accepts (C88) and not ending in a backslash (C25), YAML as in C122 with libyaml as parameter. |
| C126 | Threaded deque is linearizable under every schedule | DequeThreads | threads run programs of single accesses to the shared structure over a generic machine with a mutex and condition variables (Model/Monitor.lean, DequeThreads.lean, QueueFine.lean); forward simulation to the sequential object, with the effect at the last unlock; lost wake-ups by a credit invariant per condition variable; refuted cases by concrete schedules | proved. Programs of single accesses (Model/DequeThreads.lean) over a generic mutex/condition-variable machine (Model/Monitor.lean); linearizability by a forward simulation whose per-section obligations are discharged from the sequential lemmas of C16. |
| C127 | Threaded deque never loses a wake-up | DequeThreads | threads run programs of single accesses to the shared structure over a generic machine with a mutex and condition variables (Model/Monitor.lean, DequeThreads.lean, QueueFine.lean); forward simulation to the sequential object, with the effect at the last unlock; lost wake-ups by a credit invariant per condition variable; refuted cases by concrete schedules | proved. Counting argument: per condition variable a credit bounded by the threads woken and not yet through. The claim is false for PopN of zero items: C127_zero_items_strands_a_consumer_negated. |
| C128 | Threaded queue is linearizable under every schedule | QueueFine | threads run programs of single accesses to the shared structure over a generic machine with a mutex and condition variables (Model/Monitor.lean, DequeThreads.lean, QueueFine.lean); forward simulation to the sequential object, with the effect at the last unlock; lost wake-ups by a credit invariant per condition variable; refuted cases by concrete schedules | proved. As C126, for threaded_queue.c, refining the lock-level model of C14. |
| C129 | Threaded queue never loses a wake-up | QueueFine | threads run programs of single accesses to the shared structure over a generic machine with a mutex and condition variables (Model/Monitor.lean, DequeThreads.lean, QueueFine.lean); forward simulation to the sequential object, with the effect at the last unlock; lost wake-ups by a credit invariant per condition variable; refuted cases by concrete schedules | partial. As C127; false for PushN of several items and PopN of zero items, both shown by concrete schedules. |
| C130 | openat and its relatives act in the right directory and leave no trace | GenericAt | threads, mutex, working directory and descriptor table as a transition system with an adversarial kernel; invariant relating it to the state of the specification acceptor; a rank that every step of a thread decreases | proved. Interleaving model of generic_at.c with an adversarial kernel (Model/GenericAt.lean); the specification is an acceptor of event logs (Spec/GenericAt.lean). errno is not modelled. The program's threads must not use relative paths or chdir outside these functions while a call is under way (the source says so too). |
| C131 | openat and its relatives never block for good | GenericAt | threads, mutex, working directory and descriptor table as a transition system with an adversarial kernel; invariant relating it to the state of the specification acceptor; a rank that every step of a thread decreases | proved. Needs that pthread_mutex_lock succeeds, as the code assumes. |
| C132 | snprintf prints floating-point numbers as C99 prescribes | SnprintfFlt | long double arithmetic as exact rational results rounded to 64 bits; rounding is monotone, so the decimal exponent of every double follows from its value at the two doubles next to each power of ten, which the kernel computes; error bounds by rational arithmetic; digits by induction | partial. Proved for f/F of numbers below 2^64-1 (at most 64 significant bits) with precision at most 19, e/E/g/G of doubles that are 0 or between 1e-99 and 9e99, infinities and NaN. Missing: the ranges where the code deviates from C99 (each with a witness theorem). x87 extended precision (64-bit significand, round to nearest even) is assumed for long double, without its exponent limits. |
| C133 | JSON elements own their memory: the API behaves as on plain values | JsonHeap | a heap of blocks (elements, names, texts, child arrays) with allocation and free; the heap is exactly the disjoint union of the blocks of the trees held (multiset invariant), preserved by every call by induction on trees; values read back from the heap | proved. Keys given by the caller are strings of its own (the two other cases are the finding theorems). The value semantics of copy and merge is that of C24-C28 (integers through the text of JsonCopy); malloc never fails (xmalloc exits). The parser's own error paths are not part of this property. |
| C134 | The JSON parser allocates exactly what it returns | JsonParseHeap | the parser with the heap of C133; simulation of the value parser by induction on the recursion, each exit path shown to free its blocks | partial. Partial because of the leaks named in the statement (findings with witnesses). No lookup function; texts the parser reads past the end of (C25) are excluded; a Writer is one block. |
| C135 | Hexadecimal addresses are read digit for digit | IpHex | sscanf %x as a function; induction on the digits; the procfs printer as specification | proved. The exceptions named in the statement are the _negated theorems. sscanf's %x conversion is modelled from the C standard (and glibc for an "0x" prefix). |
| C136 | Setting and unsetting environment variables touches that variable only | Environ | the array of pointers with its terminator; loops by induction; lookup relation as specification | proved. The C library's setenv, putenv and getenv are modelled from POSIX. Removal is complete for environments with one entry per name (finding: a second entry survives, C136_second_survives_negated). |
| C137 | closefrom closes exactly the descriptors from its argument on | CloseFrom | loop over an arbitrary listing that satisfies POSIX' guarantee; set of descriptors by filters | proved. The exceptions are the _negated theorems. The listing is constrained by what POSIX says of readdir; one thread; AIX' F_CLOSEM is a single system call and not modelled. |
| C138 | mkdtemp makes one new directory or none | Mkdtemp | loop with an arbitrary world between system calls; induction on the attempts | proved. The exceptions are the _negated theorems. The replacement strrstr is that of C76; snprintf prints six digits. |
| C139 | getaddrinfo leaks nothing and lists every address | AddrInfo | heap of blocks with an oracle for malloc; list predicate with its blocks, segment lemma for appending, by induction | proved. The exceptions are the _negated theorems. The name service, inet_pton, inet_ntoa and getservbyport are parameters; atoi without leading blanks. |
| C140 | Writers give the same text to strings and files, and own what they should | Writers | blocks and streams with room left; representation invariant for each kind of writer, by induction on the calls; the help text as a series of formatted writes | proved. The exceptions (NUL characters, count of a formatted write that failed) are the _negated theorems. stdio's buffer is not modelled: bytes accepted are in the file. |
| C141 | The help text lists every option and command | Writers | blocks and streams with room left; representation invariant for each kind of writer, by induction on the calls; the help text as a series of formatted writes | proved. Options have a positive value; the dangling text for value 0 is the _negated theorem. |
| C142 | The known directories are those expected, after any history | KnownDirs | static buffers as state; invariant over histories of calls; frame theorem for returned pointers | proved. POSIX build. The exceptions (too long a path on the second call, no password entry, override cut) are the _negated theorems. |
| C143 | Averages stay within bounds | Statistics | ordered fields; induction on the samples; floor and ceiling | proved. Exact arithmetic in any ordered field: rounding, infinities and NaN are not modelled. |
| C144 | Conversion between char and 16-bit strings | Unicode | loops over lists of cells with bounds; loop invariant | proved. The exceptions (characters above 127, size 0) are the _negated theorems; char is signed. |
| C145 | Base64 text decodes to the data | Base64 | three bytes at a time; decoder specified separately; lines by induction on blocks of 48 | proved. OpenSSL's base64 filter is modelled from its documentation; failing library calls are not modelled. |
| C146 | Typed members of JSON objects and arrays | JsonTyped | refinement: the children against a record of members, by induction on the calls | proved. Refused means the assertion fails (or undefined with assertions off). |
| C147 | Threaded containers release what they take | Containers | account of blocks and synchronisation objects up to permutation, preserved by every call | proved. Contents and destruction of the items are in C03, C14, C16, C117, C126, C128. What the failed calls lose is a finding, stated exactly. |
| C148 | Search and replace returns its memory | PcreJob | heap with a plan of failing allocations; account of blocks up to permutation | proved. PCRE is a parameter; what is replaced by what is C103. |
| C149 | Setting fields of keys transfers the numbers exactly | CryptoCompat | invariant: every field holds an allocated number of its own; one assignment lemma folded over the fields of each call | proved. The number library is a set of allocated numbers; BN_num_bits is a parameter. |
| C150 | The manual page has every section, option and command | Man | the calls as a list of operations on a writer (C140); a reader of roff sections, specified separately, applied to the text | proved. gmtime_r is a parameter; years of four digits; texts of at most 10^8 bytes. |
| C151 | Receiving a socket on Windows returns it or closes it | WinPass | calls of the system decided by scripts; case analysis of every path with a ledger of sockets and buffers; digits by induction | partial. Missing from the partial theorem: receiving with NULL for the text, and receiving a text, both false of the code (_negated theorems). Windows sockets are scripts of results; sizeof(WSAPROTOCOL_INFO) is 372. |
| C152 | Lists of files are exactly the matching ones | Glob | induction on the candidates and on the result lists; refinement of C38; component-wise matching by induction | proved. glob(3) and reading a directory are parameters; for the tree theorem glob is specified for ordinary characters, * and ?. The result of a glob that fails is not freed by the code and not counted. |
| C153 | File names are mapped character by character | FileName | loop invariants over memory, induction on the string | proved. isalpha of a character above 127 is undefined (char is signed) and excluded. File_Copy is a parameter (C90). |
| C154 | Formatted output is complete | Format | case analysis over the three kinds of calls given by C98; the message by composing C99 with itself | proved. The text is the one of C98 (one text for every buffer); C99 says which it is. The message of the error functions is stated for the formats of C99. The log messages on the way are not modelled. |
| C155 | Waiting in the threaded queue ends | QueueTime | invariant over all schedules; from each state an explicit continuation | proved. Possibility, not fairness: the scheduler is not assumed to run anyone. Failing pthread calls exit the process and are not modelled. |
| C156 | The tree checks itself correctly; without a comparison it orders nearby addresses | RBVerify | characterisation by induction on the tree; instances of C10 | proved. The conversion of the pointer difference to int is taken modulo 2^32 (implementation-defined in C). |
| C157 | String hashes keep strings apart that differ in one byte | StrHash | each step of the hash is invertible modulo 2^32 (odd factors, xor-shifts); induction on the string | proved. The keys of string maps and sets are modelled as addresses of strings that do not change while they are in the map. |
| C158 | Directory entries have room for their names | Dirent | arithmetic on sizes modulo 2^64; memcpy into a zeroed block | proved. offsetof and sizeof are parameters; size_t has 64 bits, int 32. |
| C159 | Reading a stream into a buffer loses nothing; descriptor flags and masks are put back | FileMisc | induction on the loop: what was read so far is a prefix of what the stream had; bit operations bit by bit | proved. fread is modelled by its contract: fewer bytes than asked only with an indicator set. Logging is not modelled. |
| C160 | File locks on Windows exclude each other | WinLock | invariant over all histories: the lock table is what the results of the calls say; exclusive locks are alone | proved. LockFileEx and UnlockFileEx are modelled by their documentation: locks belong to handles; an exclusive request conflicts with every overlapping lock; unlocking needs the same range. Release on close is taken as immediate. |
| C161 | The red-black tree is a finite map as a pointer structure | RBPtr | heap of nodes; representation predicate tying the heap to a tree whose payloads carry addresses, zippers for the node in focus; each rotation, fix-up and public function simulates the zipper model; invariant over all histories | proved. Statement-by-statement transcription over a heap of nodes. Keys and values are one payload; KeyCopy and ValueCopy are the identity. Proved by simulating the zipper model of C10. |
| C162 | A red-black tree accounts for all its memory | RBPtr | heap of nodes; representation predicate tying the heap to a tree whose payloads carry addresses, zippers for the node in focus; each rotation, fix-up and public function simulates the zipper model; invariant over all histories | proved. The RBTree and iterator structures themselves are values, not heap blocks; xmalloc failure ends the program. |
| C163 | Iterators over a tree survive changes elsewhere | RBPtr | heap of nodes; representation predicate tying the heap to a tree whose payloads carry addresses, zippers for the node in focus; each rotation, fix-up and public function simulates the zipper model; invariant over all histories | proved. The iterator structure is a value. |
| C164 | The hash map is a finite map as a pointer structure and accounts for all its memory | HashPtr | heap of blocks; representation predicate tying bucket array and chains to lists of items that carry their addresses; each loop simulates the functional hash map; invariant over all histories | proved. heap of blocks (bucket array, items); every allocator that returns free blocks; item callbacks pure |
| C165 | Pointers from HashMapGet survive rehashing | HashPtr | heap of blocks; representation predicate tying bucket array and chains to lists of items that carry their addresses; each loop simulates the functional hash map; invariant over all histories | proved. pointers are addresses of the heap model; an address freed and handed out again would count as the same pointer, which Keeps excludes |
| C166 | Iterating over a hash map, with removal of the item just delivered | HashPtr | heap of blocks; representation predicate tying bucket array and chains to lists of items that carry their addresses; each loop simulates the functional hash map; invariant over all histories | proved. the limits (next item removed, growth, shrinking) are shown by witnesses |
| C167 | The hash map keeps its load and reports its statistics | HashPtr | heap of blocks; representation predicate tying bucket array and chains to lists of items that carry their addresses; each loop simulates the functional hash map; invariant over all histories | proved. sizes as natural numbers below the maximum of 2^30 buckets; text of the statistics not modelled, its numbers are |
| C168 | A sequence of strings written to a file is read back | SeqFile | induction over the strings: file and buffer together are the text so far; C69 for reading | proved. stdio as a buffer that flushes, fails, keeps or drops bytes as an arbitrary schedule says; strings below 10^9 bytes as in C30 |
| C169 | Timestamps of the log say the time and sort by it | Texts | digits as explicit lists; lexicographic comparison field by field; numerals from C40 | proved. strftime after the C standard with glibc's %z; years of four digits for the fixed layout; the order is that of the fields, leap seconds included |
| C170 | Messages for errors and signals give the right number or reason | Texts | digits as explicit lists; lexicographic comparison field by field; numerals from C40 | proved. FormatMessage as an arbitrary text or failure; snprintf of the C library |
| C171 | PRINTSIZE is always enough | Headers | 2^176 <= 10^53, so n bytes need at most 53n/22+1 digits; store into a block of that size | proved. sizes below 2^58 bytes, so that the macro's own arithmetic in size_t does not wrap |
| C172 | Little-endian words survive both byte orders | Headers | case analysis over the byte order; a word and its four bytes determine each other | proved. memory representation of a word as the four bytes in the order of the machine |
| C173 | The NULL-tolerant string helpers and the containment tests | Headers | loops by induction over the string; integer arithmetic for the macros | partial. strstr, strchr and strncmp of the C library as their loops; lengths up to 2^31-1 for SafeStringLength |
| C174 | ABS and the size macros compute what they say | Headers | loops by induction over the string; integer arithmetic for the macros | partial. macro arguments: single operands, sums and differences; int of 32 bits |
| C175 | nanosleep on Windows sleeps at least the time asked for | CompatMisc | integer and rational arithmetic; filter of the environment; simulation of sscanf on a block with unwritten cells | partial. Sleep with its argument INFINITE as never returning; scheduling delays not modelled |
| C176 | unsetenv on Windows and dirfd on old systems | CompatMisc | integer and rational arithmetic; filter of the environment; simulation of sscanf on a block with unwritten cells | partial. names compared byte by byte (Windows ignores case) |
| C177 | drand48 lies in [0,1) | CompatMisc | integer and rational arithmetic; filter of the environment; simulation of sscanf on a block with unwritten cells | partial. rounding as any monotone function that is exact on numbers with 53 significant bits |
| C178 | getloadavg stores the averages the kernel publishes | CompatMisc | integer and rational arithmetic; filter of the environment; simulation of sscanf on a block with unwritten cells | partial. sscanf reads as far as it needs to (glibc looks for the end of the string first); numbers as digits and points; NetBSD after the conversion by fscanf |
| C179 | Clock, broken-down time, user and seed replacements | CompatMisc | integer and rational arithmetic; filter of the environment; simulation of sscanf on a block with unwritten cells | proved. system functions by their outcomes |
| C180 | Logging by several threads at once keeps each thread's messages whole and in order | LogThreads | small steps with an arbitrary schedule; backward simulation: what a state can still write, together with what was written, is an output of the thread alone | partial. steps: look-up of the context, each read of the global level, each fprintf and each syslog call; hooks not included; VPREFIX, agent type and time stamps fixed while logging; the race on the global level is treated as interleaving |
| C181 | Cleanup functions with several threads | CleanupThreads | step relation over thread program counters and a heap of nodes; invariant by phase of the mutex holder; potential function for the number of steps; concrete schedule for the finding | proved. steps: lock, malloc, each store, each read of the list, each call of a function, each free, unlock, exit; sequentially consistent memory; malloc does not fail (xmalloc exits); the exception is the _negated theorem |
| C182 | Several sequences in one memory | SeqHeap | heap of structures and arrays; invariant that names the two blocks of each sequence; every function refines the one of Model/Seq on the first sequence of a permuted list; counting of items for ownership | proved. addresses are not used again after free and xrealloc always moves; functions that stay inside one sequence are read, computed as in Model/Seq and written back; the exceptions are the _negated theorems; sequences of at most INT_MAX elements for sorting and removing NULLs |
| C183 | Shuffling is fair and reproducible | SeqShuffle | exchange of positions: naturality for the order, surjectivity by induction from the last place, injectivity by what stays above the loop index | proved. RAND_MAX is not modelled: with rand() below RAND_MAX + 1 the numbers modulo k + 1 are only nearly uniform |
| C184 | Known directories with several threads | KnownDirsThreads | byte-wise steps under any schedule; invariant that every byte is 0 or the right one and that readers and writers have seen the beginning; monotone once full; concrete schedule for the finding | proved. one buffer at a time; sequentially consistent memory; snprintf writes its text in order and the NUL last; all calls print the same text, which fits (C142 has the sequential behaviour, with changes of user and environment) |
| C185 | Running out of memory | Alloc | heap of blocks with an oracle for refusals; invariant on the nodes of the cleanup list; each call evaluated in all its endings; loop lemma for the cleanup functions | proved. Full statement, with two findings: the process hangs instead of exiting when RegisterCleanupFunction or a cleanup function is refused memory. One thread; addresses are not reused; realloc to 0 bytes that gives NULL frees the block (glibc). |
| C186 | How every line of CSV is read | CsvExact, CsvFileExact | grammar as inductive relations; simulation of the automaton on each form with its memory block; every text is in one of the three relations by induction on its length; exactness from determinism | proved. Exact: acceptance, refusal and value of every line outside the excluded class, which is a finding of its own (C61). Three more findings are forms of the grammar. |
| C187 | Several stacks, queues, ring buffers and iterators in one memory | ContHeap | heap of blocks; invariant that the live objects own disjoint blocks that are all there is; each call evaluated under it and its effect framed; refinement of the relational specification by induction on the program; accounting by counting on the specification | proved. Full statement, with findings (copied destructor, iterator after clear, empty queue). Addresses are not reused; destructors only record; the copy function of ring buffers is NULL; one thread. |
| C188 | Several buffers in one memory, and pointers to their bytes | BufHeap | heap of structures and arrays; invariant that the live objects own disjoint blocks that are all there is; the one-buffer lemmas of C36 lifted to the heap with a frame; refinement of a functional specification in which pointers go stale when their buffer changes, by induction on the program | proved. Full statement, with findings (self append, set from itself, stale pointer, closed byte buffer). Addresses are not reused and realloc always moves; texts produced by formats are values; sizes below 2^32 (capacity computation, C36); one thread. |
| C189 | Writing JSON documents in memory | JsonWriteHeap | heap of blocks of C133; the sort is parametric in its items (it sees them through the comparison), so sorting pointers by name sorts the plain members; induction on depth and over children for both styles at once; frame by a separate induction that needs no hypothesis on the heap; an invariant on all calls that members have names | proved. Full statement, with one finding (the order changes under a const pointer). The texts are those of C24/C134's writers on plain values; the Writer is outside the heap; names are read once before each sort; one thread. |
| C190 | Threads that write the same document | JsonWriteThreads | writing as a program of single accesses; quicksort of a strictly ascending array stores only what is there; programs that are quiet in this sense run together unchanged under every schedule, by induction on the schedule; a thread alone refines the functions of C189 (quicksort step by step), what it does on its part of memory it does on all of it (frame), parts of apart elements are disjoint, so every schedule ends where the calls in turn end; findings by two schedules evaluated in the kernel | proved. Full statement, with two findings (first writes race). Accesses are single steps in some total order (as on a machine that stores pointers in one piece); a compiler may do worse, since they are unsynchronised. Each thread's Writer is its own and outside memory. |
