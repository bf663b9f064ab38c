# A Lean 4 model of cfengine/libntech

This file is generated: the prose is `tools/design_head.md`, the table is made by `tools/design.py` from `properties.jsonl`,
`MANIFEST.json` and the imports of the Lean files.

## Layout

* `lean/Verif/Model/*.lean` – transcription of the C code, function by function; every definition cites the file and lines it models
  and says where it simplifies.
* `lean/Verif/Spec/*.lean` – small independent specifications (lists, finite maps, grammars, histories, linearizability). They do not
  use the model's functions.
* `lean/Verif/Lemmas/*.lean` – proof machinery.
* `lean/Verif/Props/*.lean` – the property theorems. Their names start with the property id (`C01_…`); beside them are
  `example`s showing that concrete non-trivial cases meet the hypotheses. Suffixes: `_partial` – proved under a restriction that the English
  property does not have; `_negated` (and some older theorems named after what happens) – a finding: the unrestricted statement, or a part of it, is
  false of the code, with a concrete witness.
* `seeded/LOG.jsonl` – wrong programs tried against the theorems. `AXIOMS.md` – the axioms of each theorem.

## Trusted base

1. **Lean's kernel** (Lean 4.33.0). The build accepts no incomplete proof; `vcheck` replays every module through the kernel.
2. **Axioms**: only `propext`, `Quot.sound` and `Classical.choice`, and not all of them everywhere; `AXIOMS.md` lists them theorem by
   theorem. No axiom is added; nothing rests on compiled evaluation (`native_decide`, `bv_decide`). `decide +kernel` is kernel computation.
3. **The reading of the C code.** The models are transcribed by hand; nothing ties them to the compiled program except the citations. Unless a file
   says otherwise: Linux, glibc, 64-bit `long`, `size_t` and pointers, 32-bit `int`, signed `char`, the C locale, assertions counted as
   failures (`none`), `HAVE_CONFIG_H` defined so `HAVE_*` conditionals follow a Linux build; POSIX variants of `#ifdef __MINGW32__` code.
4. **The environment**, where a parameter or a small machine stands for something outside the repository:
   * libc: `strtol`/`strtoumax`, `strcmp`, `memcpy`/`memmove`, `strstr`, `qsort`-free, `snprintf` of decimal and string conversions, `fgets`, `fread`/`fwrite`/`fclose`
     by the C contract (short transfers, sticky errors, flushing at any time before `fclose`), `fdopen` as in glibc, XPG `dirname` and `basename`,
     `sscanf` where a numeric parser is a parameter, `syslog` as a list of messages. Real-number printing and parsing are parameters.
   * the kernel: `read`/`write` completing as an arbitrary schedule says (short counts, EINTR, errors); `lseek`, `ftruncate`; POSIX record locks;
     a filesystem of directories, files and symbolic links with `openat`, `fstatat`, `fstat`, `fchownat`, `fchmod`, `unlink`, `rmdir`, `opendir`
     and POSIX path resolution, changed by an adversary between any two calls; Linux AF_UNIX stream sockets with `SCM_RIGHTS`.
   * PCRE: any function from texts to matches whose offsets are in range, and the documented conventions of `pcre_exec` and the name table.
   * OpenSSL: any digest functions of the documented lengths; a context digests what it was fed; `BN_bn2bin` is the big-endian form.
   * pthreads: a mutex excludes; `cond_signal` wakes at most one sleeper of the schedule's choice, `cond_broadcast` all; spurious wake-ups occur.
   * `xmalloc` and friends never fail (they end the process); where the code handles failure of `malloc` (libcompat, `StringDuplicate`-like code), it may fail.

## Modelling conventions

* A C string that is only read is the list of its bytes before the terminator; where it is changed, or where reading too far matters, it
  is an explicit memory block, and an access outside or a read of an uninitialised cell is `none`. So a theorem that says `f x = some r` says in
  particular that `f` stayed inside its memory.
* Models are total functions in the `Option` monad; `none` is undefined behaviour, a failed assertion, or the end of the process through
  `DoCleanupAndExit`/`ProgrammingError` (each file says which). Loops are structural recursion or have a fuel argument; theorems about fuelled loops give a
  sufficient fuel, which is a proof that the loop ends.
* `size_t`/`int` arithmetic is `Nat`/`Int` where wrap-around is impossible or excluded by a stated hypothesis, `BitVec`/modular arithmetic where the property is about it
  (UpperPowerOfTwo, hash functions, snprintf, digit parsing).
* `long double` (snprintf.c) is x86's: a significand of 64 bits, each operation the exact result rounded to nearest even; its exponent range is not modelled (`Verif/Model/Flt.lean`).
* Linked structures (queue.c, list.c, refcount.c) live in an explicit heap of addresses. The red-black tree is modelled twice: with zippers (Model/RBTree.lean) and, statement by statement, as nodes in a heap with parent pointers (Model/RBPtr.lean), which is proved to simulate the first. So is the hash map: as a list of buckets (Model/Map.lean) and as bucket array and items in a heap (Model/HashPtr.lean).
* Concurrency. `QueueThreads`: any number of threads, each `pthread` call and each critical section a step, signalling explicit. `ThreadedStack`, and through the
  generic mutex/condition machine of `Monitor` also `DequeThreads` and `QueueFine`: any number of threads, every single memory access, lock, unlock, wait, wake and
  signal a step, with spurious wake-ups and time-outs. `FileLock`: any number of processes, every system call a step. `GenericAt`: any number of threads, every system call a step that may fail. `SafeOpen` and its users: the environment changes the filesystem arbitrarily
  between any two system calls.

## Not modelled

Windows (`__MINGW32__`) variants other than those of passing descriptors (C151) and of file names (C153); `getloadavg.c` and other one-line or platform
replacements in libcompat; allocation failure of `xmalloc`; timing (timeouts are
nondeterministic wake-ups); durability across machine crashes; data races on the global log level; `errno` (except where a file says so). Coverage of the C functions is about four
fifths of the lines of libutils and libcompat that contain functions.

## Findings

Every place where the code does not do what its documentation or name says, met while proving, is a theorem with a witness. Most notable: RBTreeCopy loses a
pair (C13), PushN loses wake-ups (C15), JSON keys are not escaped and strings are unescaped twice (C24), JsonCompare never looks inside containers (C27), JsonCopy
truncates integers (C28), IPv6 parsing loses groups (C33), UpperPowerOfTwo fails above 2^32 (C36), CSV parser reads uninitialised memory (C61), a long Mustache delimiter
overflows (C81), nested Mustache sections resolve names in the wrong scope (C83), search and replace overflows its result (C103), safe_chown follows a link and then changes another file (C106),
"rw" empties the file and fails (C109), an unreadable file hashes like any other unreadable file (C114), a second passed descriptor leaks (C118), matches with ten or more groups
are reported as empty (C119), `%Le` of 0.001 prints "10.000000e-04" and `%f` of 1e20 fails (C132),
a JSON element put into an object under its own name reads freed memory (C133), an unterminated string in a JSON array leaks the array (C134), IPAddressNewHex reads /proc/net/tcp6 with reversed words and leaves the port uninitialised (C135), the replacement mkdtemp closes standard input (C138), closefrom on HP-UX closes everything (C137), getnameinfo asks for the service of the byte-swapped port (C139), a home directory that is too long gives a null pointer once and a truncated path ever after (C142), a copy of a threaded container that fails leaks its array, a new stack that fails its mutex (C147), BufferSearchAndReplace leaks the compiled job when matching fails and reports every bad pattern as fine (C148), a set0 function given the number already there frees it and keeps it (C149), a program name with a blank is cut in the title of its manual page and options without a short form put a raw byte into it (C150), receiving a socket on Windows fails when a text comes with it (C151), `/a/**/b` does not find `/a/b` (C152), MapNameForward returns NULL (C153), a stream that takes nothing makes fprintf return 0 and xsnprintf writes into a buffer of size 0 (C154), a tree without comparison confuses keys 4 GiB apart (C156), a file system that reports no name limit gives a directory buffer that is too small (C158), a process on Windows waits for the lock it holds itself (C160), mapping a name in place under Cygwin overflows (C153), clearing a tree hands null pointers to the destructors (C162), a tree iterator made on an empty tree delivers a null pair after a put (C163), a hash map iterator reads freed memory when the item it will deliver next is removed, repeats or loses pairs when the map grows and ends early when it shrinks (C166), the statistics of a hash map call bucket 0 empty (C167), SeqStringWriteFile returns true when an output call failed and SeqStringReadFile never closes its descriptor (C168), short system messages on Windows are written before their array and strerror cuts long numbers (C170), a string of 2^32 bytes counts as empty (C173), `ABS(1 - 3)` is -4 and `KIBIBYTE(1 + 1)` is 1025 (C174), a sleep of 2^32 milliseconds on Windows returns at once (C175), dirfd reports an error as descriptor ENOTSUP (C176), drand48 can give 1 where RAND_MAX is large (C177), getloadavg scans a buffer without terminator and on NetBSD reads past its array (C178), lines of two threads get mixed when they carry time stamps, a prefix or colours, and a change of the global level can split the levels of a new thread (C180), a function registered while another thread is about to exit is never run (C181), destroying a sequence and its soft copy destroys the items twice and appending a sequence to itself never ends (C182), SeqShuffle does not put the random state back (C183), two threads asking for a directory for the first time can see a cut path (C184), a process that is refused memory while registering a cleanup function or inside one hangs instead of exiting (C185), a misplaced quote at the end of a CSV line is accepted and empties the field (C186), a copied stack destroys its items a second time and an iterator moved after its ring buffer was cleared reads outside the array (C187), appending a buffer to itself reads freed memory when it grows (C188); writing a JSON object reorders it under a const pointer (C189), two threads that write a document for the first time corrupt it (C190).

## Properties

