NOTES.update({
"C15":"The full claim is false of the code (PushN signals once for several items); the negative theorem exhibits the schedule, the positive theorem covers single-item pushes and non-zero PopN.",
"C13":"The full claim is false of the code: an odd selection of three or more loses its largest pair, and copying an empty tree is undefined. Both are proved as negative theorems; the remaining cases are proved.",
"C36":"Holds for arguments up to 2^32; a negative theorem shows the 64-bit failure, and C36_right_exactly says for which arguments up to 2^63 the result is right.",
"C02":"Includes the undefined dequeue on an empty queue as a separate theorem.",
"C17":"Holds for lists with compare and copy callbacks and non-NULL payloads, for lists without a copy function (copying refused) and for lists without either callback (elements matched by address); the negative theorems show what the code does outside: removal by address on a shared list, NULL payloads, and iterators across a detach.",
"C18":"Contents, sizes and bounds are proved for every history in both modes; NUL termination in C-string mode is proved for histories that stay in C-string mode (partial). Negative theorems: switching a full binary buffer to C-string mode leaves it unterminated, appending a NUL char, zero capacity.",
"C20":"Proved for every non-empty CRLF-terminated record, and for unterminated records except those with an empty last field after a quoted one, where a theorem shows the code returns the wrong field.",
"C61":"Partial: texts containing quote, one blank, separator are excluded; a theorem shows that the code reads uninitialised memory there. C61_uninitialised_read_negated: so it does for every text with such a place after a field that is longer than all before it.",
"C22":"Character data (XmlContent, XmlTag values) and start tags with attributes are proved; negative theorems show attribute values are not escaped and that -- is copied into comments.",
"C43":"ToUpperStrInplace is proved on the ASCII domain (the other case mappings for all strings); C43_toUpperStr_any says what the code does to every string: a blank becomes a NUL, other bytes are shifted by 32.",
"C49":"The full claim is false of the code: a negative theorem shows the destination overflow; the positive theorem covers the inputs that fit.",
"C39":"The full claim is false of the code; negative theorems: one-character slices give NULL, a negative start with a positive length returns the whole tail, dropping more than the length returns the string, a start before the beginning reads out of bounds, and so does a length of two or more for the empty string. C39_every_call settles every string, start and length.",
"C32":"The claim is false as stated: C32_parse_iff characterises exactly what is accepted (dotted quads with optional port, plus texts ending in one stray character, C32_stray_character_accepted); the partial theorem is the claim for texts ending in a digit.",
"C33":"The claim is false as stated (finding theorems: groups lost, reversed groups in brackets, port form loses groups, seven groups refused, malformed accepted). C33_accepted_exactly settles every text: it is accepted iff it is one of the nine listed forms, with the numbers and port given there. Also proved: memory safety for every text, full and bracketed forms, compressed forms up to a bound on the groups, and refusal of every text with a character other than 0-9, a-f, ':', '[' and ']' (so also A-F) and of every text with two separate '::'.",
"C34":"Includes the finding that a NULL argument breaks the order.",
"C35":"The port is not printed, so the re-parsed address has port 0; IPAddressIsEqual ignores ports.",
"C30":"The claim is false for strings of 10^9 bytes or more (the prefix has ten columns): negative theorem. The round trip is proved for all shorter strings.",
"C45":"A further theorem shows that version equality is not transitive, because missing components are not compared.",
"C46":"FullWrite and FullRead against every schedule of short transfers and errors, with a termination theorem.",
"C47":"C47_any_file settles every file, NUL bytes included. Proved for files without NUL bytes; a theorem shows that a NUL byte truncates the returned data.",
"C51":"Holds when no cleanup function registers another one; a theorem shows that doing so deadlocks.",
"C53":"Proved for every line except values ending in a lone backslash; C53_reads_past_the_end_exactly settles those: in a block of just the line's size the code leaves the block on exactly these lines (lines that end in white space excepted there, where what it reads is the rest of the line).",
"C69":"Two negative theorems: malformed and short prefixes lead to undefined behaviour.",
"C24":"False as stated: keys are written without escaping, the parser unescapes strings twice, and reals are cut at 31 characters (three negative theorems). Proved for every other element, with the numbers the API makes.",
"C25":"False for a text ending in a backslash inside a string, where the parser steps over the terminator (negative theorem). Every text is settled: with an even number of backslashes at the end (or none) it is proved (C25_parse_total_even); with an odd number the parser leaves the text exactly when the text is the beginning of one of which it accepts a part reaching beyond it (C25_leaves_the_text_exactly).",
"C27":"False as stated: comparison never looks inside containers (both iterators run over the same element). The exact condition for a zero result is proved, with a witness of two different documents that compare equal.",
"C28":"False for integers outside int (truncated) and outside long (exit); proved for all documents whose integers are ints and whose reals print back to their text. C28_copy_exactly says what the copy is for all integers in the range of long and all reals.",
"C29":"Under the same conditions on numbers as C28, because merging copies.",
"C71":"The bytes denoted are always right in a grammar without JSON5's lookahead rule; that rule (no decimal digit after \\0) is violated for a NUL followed by a digit (negative theorem).",
"C72":"Accepted and denoted correctly for every text whose string values contain no backslash before one of the escape letters; false otherwise (unescaped twice), and malformed texts are accepted (negative theorems). Every text of the RFC, with all escapes, is accepted (C72_every_text_accepted) and read with LibString for its strings (C72_every_text_is_read); \\u escapes are kept as written (negative theorem).",
"C50":"With others changing the filesystem arbitrarily between system calls: every component was looked at, opened and looked at again and satisfies the ownership rule as seen (effective uid 0 or 1); descriptors never leak; only the returned file is created or truncated. Undisturbed: trusted paths open the denoted object, untrusted ones give ENOLINK. As stated the property is false: the check and the open race, only the first of nested links is checked, the uid is stored in a bool, and flags are ignored for / (negative theorems with witnesses).",
"C76":"memmem, strstr and strcasestr miss the empty needle in an empty haystack; strrstr never finds an occurrence at offset 0 (negative theorems). Everything else is proved.",
"C78":"The order agrees for ASCII strings only: bytes from 0x80 on sort before all others because char is signed (negative theorem). Equality, antisymmetry and the length limit hold for all strings; C78_strcasecmp_order_all gives the order of all strings.",
"C80":"A stream error and lines of SSIZE_MAX bytes are not modelled; allocation succeeds.",
"C81":"Templates that change the delimiters ({{=) and have a blank-free word of ten or more bytes are excluded: a ten-byte delimiter overflows its array (negative theorem). Order of object members may change because serialising sorts.",
"C82":"Default delimiters, output buffer in C-string mode. Serialising objects whose members are not in key order reorders them during iteration (negative witness). The text of a real number is the C library's (a parameter).",
"C83":"False in general: a section over a list leaves the list on the scope stack, so the enclosing section's closing tag removes that instead of its own element (negative theorems). Proved (C83_nested_lexical_partial) for sections rendered once nested anyhow, also in sections over lists, and (C83_listless_lexical) for every template over data without lists that does not use @.",
"C85":"Both directions for all strings and addresses.",
"C86":"Canonical text for all addresses; bestRun checked over the 256 zero patterns by kernel computation and lifted to all words.",
"C87":"Exact accepted language, all RFC 4291 text forms, round trip; deviations exhibited as theorems.",
"C88":"Exactness in both directions (soundness by induction on the parser, completeness by induction on the grammar), rejection of everything else, unambiguity. No lookup function. Strings ending in a backslash are covered by C25.",
"C89":"Kernel file model (data, offset; write, lseek, ftruncate), arbitrary schedules and kill points. fsync only as a call that may fail; durability across a machine crash is not modelled. The copy theorem is for a fresh destination; C89_needs_fresh_destination shows what happens otherwise.",
"C90":"stdio streams by their contract (short transfers, sticky errors, arbitrary flushing); two open files identified by number, so aliasing is expressible; opening is the subject of C73 and following.",
"C91":"Built on the getline model of C80. Lines with NUL bytes are cut as the header documents.",
"C92":"Transition system of any number of processes over a POSIX record lock model; inductive invariant tying the kernel's lock table to what the calls returned. Threads inside one process and Windows are not modelled. Two findings as theorems (C92_two_locks, C92_descriptor_leak for every n).",
"C93":"Induction on the path for API-built documents; C93_bad_index_exits is the finding that an empty or huge all-digit position ends the process, for every array.",
"C94":"Structural induction over the nested element type; visitors are arbitrary functions over an arbitrary state but do not change the tree.",
"C95":"Simulation between iterator and cursor for every list of calls. The current type before the first step is undefined behaviour (theorem).",
"C96":"Refinement through the model of sequence.c.",
"C97":"Through C40 (strtol) and the decimal printer.",
"C98":"All conversions, also those of floating-point numbers; len is unbounded.",
"C99":"Partial: proved for d i u o x X c s with all flags, widths, precisions and modifiers in the C locale, except the listed deviations of the code, each shown by a finding theorem (precision 0 of value 0, %c with width, least intmax_t, reading past the precision, separators with precision, '#' with precision INT_MAX). %n, too large fields and thousands separators (with a width) have theorems of their own. %p has a theorem of its own (C99_pointer). Floating point: C132.",
"C100":"malloc may fail.",
"C101":"Proved for every vector; hypotheses: no option is declared as byte 255 or long value -1 (it would be taken for the end), and with a leading '+' or '-' in the option string that character is not used as an option and no ':' follows it, because the code skips the character in the first call only (negative theorems).",
"C102":"Permutation by every single call from any state; order of options and operands for option strings without '+' or '-' in front.",
"C103":"The PCRE library is a parameter constrained by its documented contract. Proved for replacements the code handles (at most 32 references, to groups up to 32, no NUL, no $` or $'); the unrestricted statement is false: findings C103_* exhibit uninitialised bytes, an overflow of the result, an array overrun, a poisoned reference, and empty matches found twice.",
"C104":"C104_plain and C104_quoted are about the specified syntax, which C103 ties to the code; C104_plain_replaced and C104_no_match are about the code.",
"C105":"The hypothesis that the list is not shared is needed and met by every list written to since it was copied (C105_written_lists_are_unshared). Findings: on a shared list the first edit gives the list new nodes while the iterator stays on the old ones, so Remove frees the copy's node (C105_shared_list_destroys_the_copy) and Prepend leaves the list on borrowed nodes (C105_shared_list_borrows_the_copys_nodes); HasNext and HasPrevious of an invalidated iterator read a freed node (C105_has_next_reads_freed_node).",
"C106":"As stated false for safe_chown: it finds the directory of what a link leads to and then looks there for the name of the link itself, so another file is given away or ENOENT is reported (C106_link_leaf_negated). Proved: at most one object changed, in a directory reached as checked, under the path's own last name; descriptors restored; on quiet filesystems a trusted directory part makes both succeed on what is not a link (safe_lchown also on links), untrusted links and missing names are refused with nothing changed. Effective uid 0 or 1, as for C50.",
"C107":"The same finding: through a link, existence and the FIFO test are looked up under the link's own name in the target's directory (C107_link_leaf_negated). Effective uid 0 or 1. Modes are not part of the filesystem model; which object's mode was set, and at which system call, is.",
"C108":"Exact on quiet filesystems for a trusted path (euid 0 or 1, no trailing slash, paths below 4096 bytes, enough descriptors). As stated false: a path that leads through the tree itself (/t/e/..) reports success with entries left (C108_path_through_tree_negated); the owner of a directory in the tree can make root remove a file outside it (C108_race_negated); paths are cut at 4095 bytes without a check (C108_truncated_path_negated).",
"C109":"Effective uid 0 or 1, as for C50. Outside the standard modes: other characters end the program before anything is touched; letters in the wrong place are accepted by the mode loop, so 'rw' empties the file and then fails with EINVAL (C109_rw_empties_the_file_negated). fdopen is glibc's; modes longer than five characters are not covered.",
"C110":"Calls of different threads run one after another (the unsynchronised read of the global level is not modelled as a race). Levels 0 to 6; Log(LOG_LEVEL_NOTHING) ends the program and WouldLog says true for it (C110_nothing_ends_the_program_negated). LogRaw is proved when not only the hook's level asks for the message: in that case it does not call the hook although Log would (C110_raw_skips_the_hook_negated). Syslog lines are cut at 4095 bytes.",
"C112":"Finding: modules listed before 'help' are enabled although help is said to enable nothing (C112_help_after_others_negated).",
"C114":"OpenSSL is a parameter (digest functions of the documented lengths; update appends). As stated false for failing reads: HashNewFromDescriptor hands read's -1 to EVP_DigestUpdate as a length (C114_read_error_overread_negated); HashFile silently gives the digest of the part read before an error (C114_file_read_error_negated), and zeros for files it cannot open, which match each other (C114_unreadable_files_match_negated). Everything else is proved for reads that succeed.",
"C116":"Keys whose modulus or exponent is NULL are passed on to BN_bn2bin, which does not accept them; not covered.",
"C117":"Model at the granularity of single memory accesses, the mutex being an instruction of each function; linearizability defined in Spec/Linearizable.lean without reference to the model. Creation and destruction of the stack are outside the concurrent part.",
"C118":"The channel property is proved in full for texts of at most 1023 bytes (the documented limit). Against an arbitrary peer (partial): findings with witnesses - a second attached descriptor leaks (release build), texts over 1023 bytes are not truncated as documented but spill into the next text, at verbose level an unterminated message is read past the buffer. The MinGW implementation is not modelled.",
"C119":"PCRE is a parameter (what it finds in a text; its documented ways of reporting it). Partial because of ten or more groups: see C119_ten_groups_negated.",
"C120":"C120_any_text settles every text (any line length, NUL bytes, read errors anywhere) against a description of the pieces read. The claim as stated is partial: lines of at most 1023 bytes, no NUL bytes; longer lines are split (finding C120_long_line_negated). sscanf is a parameter for the numeric variant.",
"C121":"Partial because an array nested as first item is accepted (acknowledged in the source, C121_nested_array_negated); C121_every_element settles every JSON element.",
"C122":"libyaml is represented by the event sequence it delivers. Partial: plain scalars that begin with a number and go on (GoodValue) and integers that JsonCopy changes are excluded - these are findings with witnesses: leading_number, integers (3000000000 becomes negative, 1e5 ends the process), bool_tag, alias, empty document (read outside the array), error (a syntax error is not reported), complex_key (ends the process).",
"C123":"Partial: lines whose value ends in a lone backslash are excluded (they make ParseEnvLine read beyond the line, finding of C53).",
"C124":"C124_written_file has no such restriction; for arbitrary files partial: no quote followed by one blank and a separator (finding of C61).",
"C125":"Partial as the parts it is made of: no NUL bytes (C47), JSON by the grammar the parser accepts (C88) and not ending in a backslash (C25), YAML as in C122 with libyaml as parameter.",
"C126":"Programs of single accesses (Model/DequeThreads.lean) over a generic mutex/condition-variable machine (Model/Monitor.lean); linearizability by a forward simulation whose per-section obligations are discharged from the sequential lemmas of C16.",
"C127":"Counting argument: per condition variable a credit bounded by the threads woken and not yet through. The claim is false for PopN of zero items: C127_zero_items_strands_a_consumer_negated.",
"C128":"As C126, for threaded_queue.c, refining the lock-level model of C14.",
"C129":"As C127; false for PushN of several items and PopN of zero items, both shown by concrete schedules.",
"C130":"Interleaving model of generic_at.c with an adversarial kernel (Model/GenericAt.lean); the specification is an acceptor of event logs (Spec/GenericAt.lean). errno is not modelled. The program's threads must not use relative paths or chdir outside these functions while a call is under way (the source says so too).",
"C131":"Needs that pthread_mutex_lock succeeds, as the code assumes.",
"C132":"Proved for f/F of numbers below 2^64-1 (at most 64 significant bits) with precision at most 19, e/E/g/G of doubles that are 0 or between 1e-99 and 9e99, infinities and NaN. Missing: the ranges where the code deviates from C99 (each with a witness theorem). x87 extended precision (64-bit significand, round to nearest even) is assumed for long double, without its exponent limits.",
"C133":"Keys given by the caller are strings of its own (the two other cases are the finding theorems). The value semantics of copy and merge is that of C24-C28 (integers through the text of JsonCopy); malloc never fails (xmalloc exits). The parser's own error paths are not part of this property.",
"C134":"Partial because of the leaks named in the statement (findings with witnesses). No lookup function; texts the parser reads past the end of (C25) are excluded; a Writer is one block.",
"C135":"The exceptions named in the statement are the _negated theorems. sscanf's %x conversion is modelled from the C standard (and glibc for an \"0x\" prefix).",
"C136":"The C library's setenv, putenv and getenv are modelled from POSIX. Removal is complete for environments with one entry per name (finding: a second entry survives, C136_second_survives_negated).",
"C137":"The exceptions are the _negated theorems. The listing is constrained by what POSIX says of readdir; one thread; AIX' F_CLOSEM is a single system call and not modelled.",
"C138":"The exceptions are the _negated theorems. The replacement strrstr is that of C76; snprintf prints six digits.",
"C139":"The exceptions are the _negated theorems. The name service, inet_pton, inet_ntoa and getservbyport are parameters; atoi without leading blanks.",
"C140":"The exceptions (NUL characters, count of a formatted write that failed) are the _negated theorems. stdio's buffer is not modelled: bytes accepted are in the file.",
"C141":"Options have a positive value; the dangling text for value 0 is the _negated theorem.",
"C142":"POSIX build. The exceptions (too long a path on the second call, no password entry, override cut) are the _negated theorems.",
"C143":"Exact arithmetic in any ordered field: rounding, infinities and NaN are not modelled.",
"C144":"The exceptions (characters above 127, size 0) are the _negated theorems; char is signed.",
"C145":"OpenSSL's base64 filter is modelled from its documentation; failing library calls are not modelled.",
"C146":"Refused means the assertion fails (or undefined with assertions off).",
"C147":"Contents and destruction of the items are in C03, C14, C16, C117, C126, C128. What the failed calls lose is a finding, stated exactly.",
"C148":"PCRE is a parameter; what is replaced by what is C103.",
"C149":"The number library is a set of allocated numbers; BN_num_bits is a parameter.",
"C150":"gmtime_r is a parameter; years of four digits; texts of at most 10^8 bytes.",
"C151":"Missing from the partial theorem: receiving with NULL for the text, and receiving a text, both false of the code (_negated theorems). Windows sockets are scripts of results; sizeof(WSAPROTOCOL_INFO) is 372.",
"C152":"glob(3) and reading a directory are parameters; for the tree theorem glob is specified for ordinary characters, * and ?. The result of a glob that fails is not freed by the code and not counted.",
"C153":"isalpha of a character above 127 is undefined (char is signed) and excluded. File_Copy is a parameter (C90).",
"C154":"The text is the one of C98 (one text for every buffer); C99 says which it is. The message of the error functions is stated for the formats of C99. The log messages on the way are not modelled.",
"C155":"Possibility, not fairness: the scheduler is not assumed to run anyone. Failing pthread calls exit the process and are not modelled.",
"C156":"The conversion of the pointer difference to int is taken modulo 2^32 (implementation-defined in C).",
"C157":"The keys of string maps and sets are modelled as addresses of strings that do not change while they are in the map.",
"C158":"offsetof and sizeof are parameters; size_t has 64 bits, int 32.",
"C159":"fread is modelled by its contract: fewer bytes than asked only with an indicator set. Logging is not modelled.",
"C160":"LockFileEx and UnlockFileEx are modelled by their documentation: locks belong to handles; an exclusive request conflicts with every overlapping lock; unlocking needs the same range. Release on close is taken as immediate.",
"C161":"Statement-by-statement transcription over a heap of nodes. Keys and values are one payload; KeyCopy and ValueCopy are the identity. Proved by simulating the zipper model of C10.",
"C162":"The RBTree and iterator structures themselves are values, not heap blocks; xmalloc failure ends the program.",
"C163":"The iterator structure is a value.",
"C164":"heap of blocks (bucket array, items); every allocator that returns free blocks; item callbacks pure",
"C165":"pointers are addresses of the heap model; an address freed and handed out again would count as the same pointer, which Keeps excludes",
"C166":"the limits (next item removed, growth, shrinking) are shown by witnesses",
"C167":"sizes as natural numbers below the maximum of 2^30 buckets; text of the statistics not modelled, its numbers are",
"C168":"stdio as a buffer that flushes, fails, keeps or drops bytes as an arbitrary schedule says; strings below 10^9 bytes as in C30",
"C169":"strftime after the C standard with glibc's %z; years of four digits for the fixed layout; the order is that of the fields, leap seconds included",
"C170":"FormatMessage as an arbitrary text or failure; snprintf of the C library",
"C171":"sizes below 2^58 bytes, so that the macro's own arithmetic in size_t does not wrap",
"C172":"memory representation of a word as the four bytes in the order of the machine",
"C173":"strstr, strchr and strncmp of the C library as their loops; lengths up to 2^31-1 for SafeStringLength",
"C174":"macro arguments: single operands, sums and differences; int of 32 bits",
"C175":"Sleep with its argument INFINITE as never returning; scheduling delays not modelled",
"C176":"names compared byte by byte (Windows ignores case)",
"C177":"rounding as any monotone function that is exact on numbers with 53 significant bits",
"C178":"sscanf reads as far as it needs to (glibc looks for the end of the string first); numbers as digits and points; NetBSD after the conversion by fscanf",
"C179":"system functions by their outcomes",
"C180":"steps: look-up of the context, each read of the global level, each fprintf and each syslog call; hooks not included; VPREFIX, agent type and time stamps fixed while logging; the race on the global level is treated as interleaving",
"C181":"steps: lock, malloc, each store, each read of the list, each call of a function, each free, unlock, exit; sequentially consistent memory; malloc does not fail (xmalloc exits); the exception is the _negated theorem",
"C182":"addresses are not used again after free and xrealloc always moves; functions that stay inside one sequence are read, computed as in Model/Seq and written back; the exceptions are the _negated theorems; sequences of at most INT_MAX elements for sorting and removing NULLs",
"C183":"RAND_MAX is not modelled: with rand() below RAND_MAX + 1 the numbers modulo k + 1 are only nearly uniform",
"C184":"one buffer at a time; sequentially consistent memory; snprintf writes its text in order and the NUL last; all calls print the same text, which fits (C142 has the sequential behaviour, with changes of user and environment)",
"C185":"Full statement, with two findings: the process hangs instead of exiting when RegisterCleanupFunction or a cleanup function is refused memory. One thread; addresses are not reused; realloc to 0 bytes that gives NULL frees the block (glibc).",
"C186":"Exact: acceptance, refusal and value of every line outside the excluded class, which is a finding of its own (C61). Three more findings are forms of the grammar.",
"C187":"Full statement, with findings (copied destructor, iterator after clear, empty queue). Addresses are not reused; destructors only record; the copy function of ring buffers is NULL; one thread.",
"C188":"Full statement, with findings (self append, set from itself, stale pointer, closed byte buffer). Addresses are not reused and realloc always moves; texts produced by formats are values; sizes below 2^32 (capacity computation, C36); one thread.",
"C189":"Full statement, with one finding (the order changes under a const pointer). The texts are those of C24/C134's writers on plain values; the Writer is outside the heap; names are read once before each sort; one thread.",
"C190":"Full statement, with two findings (first writes race). Accesses are single steps in some total order (as on a machine that stores pointers in one piece); a compiler may do worse, since they are unsynchronised. Each thread's Writer is its own and outside memory.",
})
