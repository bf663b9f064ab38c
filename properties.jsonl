{"id": "C01", "title": "Ring buffer keeps exactly the newest elements, oldest first", "statement": "After any sequence of RingBufferAppend / RingBufferClear on a buffer of capacity c>0, RingBufferLength is min(c, appends since the last clear), iterating yields exactly the last min(c,n) appended elements from oldest to newest, RingBufferHead returns the newest one (NULL when empty), and the element passed to the destructor by an append on a full buffer is exactly the oldest one.", "quantifier": "every capacity > 0 and every finite history of append/clear", "why_tests_cant": "the write index wraps; a test only samples a few capacity/append-count combinations", "anchors": ["libutils/ring_buffer.c: RingBufferNew, RingBufferAppend, RingBufferClear, RingBufferHead, RingBufferIteratorNext"]}
{"id": "C02", "title": "Queue is FIFO", "statement": "Any interleaving of QueueEnqueue and QueueDequeue (dequeue only when non-empty) returns the enqueued elements in order, each exactly once; QueueCount, QueueIsEmpty and QueueHead agree with the abstract list.", "quantifier": "every finite history of operations", "why_tests_cant": "the linked list has special cases for the first and last node that depend on history", "anchors": ["libutils/queue.c: QueueEnqueue, QueueDequeue, QueueHead, QueueCount"]}
{"id": "C03", "title": "Stack is LIFO for every growth history", "statement": "StackPush/StackPop/StackTop/StackCount behave as a list used at one end, for every initial capacity and through every capacity doubling; StackPop and StackTop on an empty stack return NULL; a copy has the same contents and is independent.", "quantifier": "every initial capacity and every finite history", "why_tests_cant": "growth happens at unbounded many sizes; aliasing of copies depends on history", "anchors": ["libutils/stack.c", "libutils/stack_base.c"]}
{"id": "C04", "title": "Seq is a growable list", "statement": "SeqAppend, SeqSet, SeqRemove, SeqRemoveRange, SeqClear, SeqReverse, SeqLookup, SeqIndexOf, SeqGetRange, SeqSplit, SeqAppendOnce, SeqRemoveNulls behave as the corresponding list operations on any contents, without losing, duplicating or destroying an element other than the ones removed.", "quantifier": "every sequence contents, every index/range meeting the documented precondition", "why_tests_cant": "memmove arithmetic and doubling depend on length, capacity and range", "anchors": ["libutils/sequence.c"]}
{"id": "C05", "title": "SeqSort sorts", "statement": "SeqSort terminates and leaves a permutation of the original elements in non-decreasing order for every comparator that is a total preorder.", "quantifier": "every sequence and every total-preorder comparator", "why_tests_cant": "n! inputs for each length; termination for all inputs is not testable", "anchors": ["libutils/sequence.c: SeqSort, QuickSortRecursive"]}
{"id": "C06", "title": "SeqBinaryLookup is exact on sorted sequences", "statement": "On a sequence sorted by the comparator SeqBinaryIndexOf returns an index holding an equal element iff one exists, else -1.", "quantifier": "every sorted sequence, every key", "why_tests_cant": "off-by-one errors show only for particular lengths and positions", "anchors": ["libutils/sequence.c: SeqBinaryIndexOf, SeqBinaryLookup"]}
{"id": "C07", "title": "Map is a finite map over every history", "statement": "For every history of MapInsert/MapRemove/MapGet/MapHasKey/MapClear, with any hash function compatible with the equality, results are those of an abstract finite map: get returns the value of the last insert of an equal key not removed since, size counts distinct keys, and iteration visits every live pair exactly once. This holds through the tiny-array to hash-table transition and every grow/shrink rehash.", "quantifier": "every history, every equality/hash pair with equal keys hashing equal", "why_tests_cant": "the representation changes at sizes that depend on the whole history and hash collisions", "anchors": ["libutils/map.c", "libutils/array_map.c", "libutils/hash_map.c"]}
{"id": "C08", "title": "Map destroys each key and value exactly once", "statement": "Over any history of inserts, removes, clear and final destroy, every key and value handed to the map is passed to its destructor exactly once, and never while still reachable through the map.", "quantifier": "every history", "why_tests_cant": "leaks and double frees appear only on particular replace/transition/resize interleavings", "anchors": ["libutils/map.c", "libutils/array_map.c: ArrayMapInsert, ArrayMapRemove", "libutils/hash_map.c: HashMapInsert, HashMapRemove, HashMapResize"]}
{"id": "C09", "title": "Set behaves as a mathematical set", "statement": "SetAdd/SetRemove/SetContains/SetSize/SetJoin/SetIsEqual implement set semantics; SetJoin moves the elements of the second set that pass into the first.", "quantifier": "every pair of histories", "why_tests_cant": "combines two map histories", "anchors": ["libutils/set.c"]}
{"id": "C10", "title": "RBTree is a finite map over every history", "statement": "RBTreePut/RBTreeGet/RBTreeRemove/RBTreeSize behave as a finite map ordered by the comparator, for every history; Put returns whether the key was already present; Remove returns whether something was removed.", "quantifier": "every history, every total-order comparator", "why_tests_cant": "rebalancing depends on the whole history", "anchors": ["libutils/rb-tree.c"]}
{"id": "C11", "title": "RBTree iteration is sorted and complete", "statement": "Iterating a tree yields each live pair exactly once in strictly increasing key order.", "quantifier": "every reachable tree", "why_tests_cant": "successor computation depends on tree shape", "anchors": ["libutils/rb-tree.c: Next_, RBTreeIteratorNext"]}
{"id": "C12", "title": "RBTree stays balanced", "statement": "After every history the tree is a red-black tree, so its height is at most 2*log2(size+1).", "quantifier": "every history", "why_tests_cant": "a balance violation is invisible to functional tests", "anchors": ["libutils/rb-tree.c: PutFix_, RemoveFix_"]}
{"id": "C13", "title": "RBTreeCopy yields an equal tree", "statement": "RBTreeCopy of any tree contains exactly the same pairs as the original.", "quantifier": "every reachable tree", "why_tests_cant": "the copy loop is index arithmetic over the node count parity", "anchors": ["libutils/rb-tree.c: RBTreeCopy"]}
{"id": "C14", "title": "Threaded queue delivers each item once, in order", "statement": "For every interleaving of pushes, pops, PopN, clear and copy by any number of threads, the concatenation of items handed out is the prefix of the items in push order (minus those cleared), each exactly once, through every buffer wrap and expansion.", "quantifier": "every interleaving of critical sections and every initial capacity", "why_tests_cant": "schedules and wrap positions are unbounded", "anchors": ["libutils/threaded_queue.c"]}
{"id": "C15", "title": "Threaded queue: no lost wake-up", "statement": "If a consumer is blocked in a pop with no timeout and the queue is non-empty, then some consumer has been signalled and will run: no consumer sleeps forever next to available items.", "quantifier": "every schedule of push, pushN, pop and popN by any number of threads", "why_tests_cant": "requires particular schedules of condition variables", "anchors": ["libutils/threaded_queue.c: ThreadedQueuePush, ThreadedQueuePushN, ThreadedQueuePop, ThreadedQueuePopN"]}
{"id": "C16", "title": "Threaded deque behaves as a double-ended queue", "statement": "PushLeft/PushRight/PopLeft/PopRight/PopLeftN/PopRightN/Clear behave as operations on a list, for every history, wrap and expansion.", "quantifier": "every history of critical sections, every initial capacity", "why_tests_cant": "wrap positions and expansions depend on history", "anchors": ["libutils/threaded_deque.c"]}
{"id": "C17", "title": "List copies are isolated (copy on write)", "statement": "After ListCopy, mutations (Append, Prepend, Remove) of one of the lists never change the elements observed in the other.", "quantifier": "every history over a family of copies", "why_tests_cant": "aliasing depends on history", "anchors": ["libutils/list.c", "libutils/refcount.c"]}
{"id": "C18", "title": "Buffer contents and bounds", "statement": "For every history of BufferSet/Append/AppendString/AppendChar/Clear/Trim, the buffer holds exactly the concatenation since the last reset, used size stays below the capacity, no write lands outside the allocation and in C-string mode the content is NUL terminated.", "quantifier": "every history, capacity and content", "why_tests_cant": "expansion boundary depends on the history of sizes", "anchors": ["libutils/buffer.c"]}
{"id": "C19", "title": "String writer concatenates", "statement": "StringWriterData is the concatenation of everything written, StringWriterLength its length, for every sequence of WriterWrite/WriterWriteLen/WriterWriteChar, with no write outside the allocation.", "quantifier": "every sequence of writes", "why_tests_cant": "reallocation boundary depends on the sequence of lengths", "anchors": ["libutils/writer.c"]}
{"id": "C20", "title": "CSV records round trip", "statement": "A record written with CsvWriter and read back with SeqParseCsvString gives exactly the original list of fields.", "quantifier": "every non-empty list of fields with arbitrary bytes other than NUL", "why_tests_cant": "quoting interacts with every character and position", "anchors": ["libutils/csv_writer.c", "libutils/csv_parser.c: seq_append_from_csv / LaunchCsvAutomata"]}
{"id": "C21", "title": "CSV multi-line reader splits at record boundaries", "statement": "Reading a CsvWriter document with GetCsvLineNext returns the records one by one, including records whose quoted fields contain CR/LF, and then end of file.", "quantifier": "every list of records", "why_tests_cant": "line breaks inside quoted fields at any position", "anchors": ["libutils/csv_parser.c: GetCsvLineNext"]}
{"id": "C22", "title": "XML text escaping is injective and safe", "statement": "Escaped character data contains none of the characters < > \" ' and no & that does not start an entity, and unescaping it returns the original text. Elements and start tags read back as their name, their attributes in order with their values (where these need no escaping), and their text.", "quantifier": "every string", "why_tests_cant": "every character in every context", "anchors": ["libutils/xml_writer.c: WriteEscaped"]}
{"id": "C23", "title": "JSON string escaping round trips", "statement": "Decoding the JSON encoding of any string gives the string back, and the encoded form contains no raw control newline/tab/quote.", "quantifier": "every string", "why_tests_cant": "every character in every context", "anchors": ["libutils/json.c: JsonEncodeStringWriter, JsonDecodeString"]}
{"id": "C24", "title": "JSON write then parse gives an equal document", "statement": "Parsing the text produced by JsonWrite or JsonWriteCompact succeeds and yields an element equal (objects as maps) to the one written.", "quantifier": "every well-formed element", "why_tests_cant": "documents are unboundedly nested; escaping interacts with nesting", "anchors": ["libutils/json.c: JsonWrite, JsonWriteCompact, JsonParse"]}
{"id": "C25", "title": "JSON parsing is total and stays in bounds", "statement": "JsonParse on any NUL-terminated text terminates, returns an element or an error code, and never reads past the terminator.", "quantifier": "every input text", "why_tests_cant": "malformed inputs are unbounded", "anchors": ["libutils/json.c: JsonParse and callees"]}
{"id": "C26", "title": "JSON objects are maps with unique keys", "statement": "For every history of JsonObjectAppend*/JsonObjectRemoveKey/JsonObjectDetachKey, keys stay unique and JsonObjectGet returns the last value appended for the key.", "quantifier": "every history", "why_tests_cant": "depends on history", "anchors": ["libutils/json.c: JsonObjectAppendElement, JsonObjectRemoveKey, JsonObjectGet, JsonObjectDetachKey"]}
{"id": "C27", "title": "JsonCompare is zero only on equal documents", "statement": "JsonCompare(a,b)==0 iff a and b are equal documents.", "quantifier": "every pair of elements", "why_tests_cant": "pairs of documents are unbounded", "anchors": ["libutils/json.c: JsonElementCompare, JsonArrayCompare, JsonObjectCompare"]}
{"id": "C28", "title": "JsonCopy is a faithful deep copy", "statement": "JsonCopy(e) is a document equal to e.", "quantifier": "every element", "why_tests_cant": "values and nesting unbounded", "anchors": ["libutils/json.c: JsonCopy, JsonPrimitiveCopy"]}
{"id": "C29", "title": "JsonMerge semantics", "statement": "Merging arrays concatenates; merging objects gives the union of keys with the second operand winning.", "quantifier": "every pair of containers", "why_tests_cant": "pairs are unbounded", "anchors": ["libutils/json.c: JsonMerge, JsonArrayMergeArray, JsonObjectMergeObject"]}
{"id": "C30", "title": "String sequence serialization round trips", "statement": "SeqStringDeserialize(SeqStringSerialize(s)) equals s.", "quantifier": "every sequence of strings", "why_tests_cant": "length prefix width and embedded separators", "anchors": ["libutils/string_sequence.c: SeqStringSerialize, SeqStringDeserialize"]}
{"id": "C31", "title": "String sequence deserialization is memory safe", "statement": "SeqStringDeserialize on any NUL-terminated input reads only inside the input and returns a sequence or NULL.", "quantifier": "every input string", "why_tests_cant": "malformed inputs are unbounded", "anchors": ["libutils/string_sequence.c: SeqStringDeserialize, GetLengthPrefix, ValidDuplicate"]}
{"id": "C32", "title": "IPv4 parsing accepts exactly valid addresses", "statement": "IPAddressNew on a text returns the address it denotes for every d.d.d.d[:port] with octets <=255 and port<=65535, and rejects every other text.", "quantifier": "every input text", "why_tests_cant": "input space unbounded", "anchors": ["libutils/ip_address.c: IPV4_parser, Char2Dec"]}
{"id": "C33", "title": "IPv6 parsing accepts exactly valid addresses", "statement": "IPAddressNew on an RFC 4291 text returns the 8 groups it denotes and rejects invalid texts.", "quantifier": "every input text", "why_tests_cant": "input space unbounded", "anchors": ["libutils/ip_address.c: IPV6_parser"]}
{"id": "C34", "title": "IP comparison is a strict weak order compatible with equality", "statement": "IPAddressIsEqual is an equivalence, IPAddressCompareLess is a strict weak order, IPv4 sort before IPv6, and neither less => equal within one family.", "quantifier": "every pair/triple of addresses", "why_tests_cant": "2^128 addresses", "anchors": ["libutils/ip_address.c: IPAddressIsEqual, IPAddressCompareLess"]}
{"id": "C35", "title": "IP printing round trips", "statement": "Printing a parsed address (with or without port) and parsing it again yields an equal address.", "quantifier": "every address", "why_tests_cant": "2^32 / 2^128 addresses", "anchors": ["libutils/ip_address.c: IPAddressGetAddress, IPAddressNew"]}
{"id": "C36", "title": "UpperPowerOfTwo", "statement": "UpperPowerOfTwo(v) is the smallest power of two >= v for every v for which it is representable.", "quantifier": "every size_t", "why_tests_cant": "2^64 inputs", "anchors": ["libutils/misc_lib.c: UpperPowerOfTwo"]}
{"id": "C37", "title": "Bounded string copy/append never overflow and truncate correctly", "statement": "StringCopy, strlcpy, strlcat, StringAppend and friends write only inside the destination, always NUL terminate, and produce the longest prefix that fits; the return value lets the caller detect truncation.", "quantifier": "every source string and buffer size", "why_tests_cant": "boundary sizes for every length", "anchors": ["libutils/string_lib.c: StringCopy, StringAppend", "libcompat/strlcpy.c", "libcompat/strlcat.c"]}
{"id": "C38", "title": "Search and replace", "statement": "SearchAndReplace replaces every non-overlapping occurrence, left to right, and leaves text without occurrences unchanged; StringReplace does the same in place and returns the new length, 0 for no occurrence, or -1 when the buffer is too small, in which case the buffer is not overrun.", "quantifier": "every source, search, replace, buffer size", "why_tests_cant": "overlap and size arithmetic for unbounded inputs", "anchors": ["libutils/string_lib.c: SearchAndReplace, StringReplace, StringReplaceN"]}
{"id": "C39", "title": "Substring follows its documentation", "statement": "StringSubstring(s, len, start, n) returns the wanted slice for every start and len: a negative start counts from the end, a negative len drops characters from the end, a slice reaching beyond the end is cut; it never reads outside the string.", "quantifier": "every string, start and length", "why_tests_cant": "sign/size conversions at boundaries", "anchors": ["libutils/string_lib.c: StringSubstring"]}
{"id": "C40", "title": "Integer parsing", "statement": "StringToLong/StringToInt64 accept exactly an optional sign and decimal digits with allowed surrounding blanks, return the denoted value, and report range/format errors with documented codes; the variants with a default give the default exactly when there is such an error, and the variants that end the process end it exactly then.", "quantifier": "every input text", "why_tests_cant": "input space unbounded", "anchors": ["libutils/string_lib.c: StringToLong, StringToInt64, StringToUlong"]}
{"id": "C41", "title": "Tokenising", "statement": "StringCountTokens and StringGetToken agree with splitting at separator runs, and token i for i < count is the i-th maximal separator-free run.", "quantifier": "every string and separator set", "why_tests_cant": "runs at either end", "anchors": ["libutils/string_lib.c: StringCountTokens, StringGetToken"]}
{"id": "C42", "title": "Trimming", "statement": "TrimWhitespace, Chop, StripTrailingNewline and TrimCSVLineCRLF remove exactly the trailing/leading characters they document and nothing else.", "quantifier": "every string", "why_tests_cant": "position-dependent", "anchors": ["libutils/string_lib.c"]}
{"id": "C43", "title": "Case conversion", "statement": "ToLowerStr/ToUpperStr change only ASCII letters and are idempotent; lower after upper equals lower.", "quantifier": "every string", "why_tests_cant": "every byte", "anchors": ["libutils/string_lib.c: ToLower, ToUpper, ToLowerStrInplace, ToUpperStrInplace"]}
{"id": "C44", "title": "CanonifyName", "statement": "CanonifyName yields only [A-Za-z0-9_], preserves length (up to the buffer), and is idempotent.", "quantifier": "every string", "why_tests_cant": "every byte and length", "anchors": ["libutils/string_lib.c: CanonifyName, CanonifyNameInPlace"]}
{"id": "C45", "title": "Version comparison", "statement": "CompareVersion is antisymmetric, and equal to lexicographic comparison of the common numeric components (components missing on one side are not compared).", "quantifier": "every pair of version strings", "why_tests_cant": "pairs unbounded", "anchors": ["libutils/version_comparison.c"]}
{"id": "C46", "title": "FullWrite/FullRead under arbitrary short I/O", "statement": "For every schedule of short reads/writes and EINTR, FullWrite writes exactly the buffer, in order, or reports an error; FullRead returns the first min(len, available) bytes.", "quantifier": "every schedule of partial transfers and interruptions", "why_tests_cant": "schedules are chosen by the kernel", "anchors": ["libutils/file_lib.c: FullWrite, FullRead"]}
{"id": "C47", "title": "FileReadFromFd returns the file contents", "statement": "For every chunking of reads, the data returned is the first max_size bytes of the file and the truncated flag says whether more was available.", "quantifier": "every file content and chunking", "why_tests_cant": "schedules are chosen by the kernel", "anchors": ["libutils/file_lib.c: FileReadFromFd"]}
{"id": "C48", "title": "Path and string joining", "statement": "PathAppend, StrCat, StrCatDelim, Path_JoinAlloc, StringConcatenate never overflow the destination, join with exactly one separator, and report overflow without modifying the contents.", "quantifier": "every pair of strings and size", "why_tests_cant": "boundary sizes", "anchors": ["libutils/string_lib.c: PathAppend, StrCat, StrCatDelim", "libutils/path.c"]}
{"id": "C49", "title": "Escape/unescape of characters", "statement": "EscapeCharCopy returns the string with each separator escaped, inside the memory it allocated.", "quantifier": "every string", "why_tests_cant": "overflow occurs only for particular patterns", "anchors": ["libutils/string_lib.c: EscapeCharCopy, CountChar"]}
{"id": "C50", "title": "safe_open follows only trusted symlinks", "statement": "A path is opened only if each component that is a symlink is owned by root, by the running user, or has the owner and group of its target; no file other than the one named is created or truncated.", "quantifier": "every path, filesystem state and interleaving of an adversary between system calls", "why_tests_cant": "needs adversarial scheduling between system calls", "anchors": ["libutils/file_lib.c: safe_open_create_perms"]}
{"id": "C51", "title": "Cleanup functions run once, last registered first", "statement": "CallCleanupFunctions runs every registered function exactly once in LIFO order.", "quantifier": "every list of registrations", "why_tests_cant": "histories unbounded", "anchors": ["libutils/cleanup.c"]}
{"id": "C52", "title": "Hash printing", "statement": "HashPrintSafe / StringBytesToHex produce two lower-case hex digits per byte, fit the destination, and are injective on digests of the same type.", "quantifier": "every digest and buffer size", "why_tests_cant": "input space", "anchors": ["libutils/hash.c: HashPrintSafe", "libutils/string_lib.c: StringBytesToHex"]}
{"id": "C53", "title": "Environment-file lines", "statement": "JsonParseEnvFile's line parser splits NAME=value, strips matching quotes and handles escapes, and never reads past the line.", "quantifier": "every input line", "why_tests_cant": "malformed inputs", "anchors": ["libutils/json-utils.c: ParseEnvLine, filtered_copy"]}
{"id": "C54", "title": "Reference counting", "statement": "A reference counter's recorded owners are exactly those attached and not detached (the last owner is never dropped), the user count is their number, IsShared says whether there is more than one, and a detach by a stranger from a shared counter stops with ProgrammingError.", "quantifier": "every history", "why_tests_cant": "history dependent", "anchors": ["libutils/refcount.c"]}
{"id": "C55", "title": "UnsignedModulus is the mathematical modulus", "statement": "UnsignedModulus(a,d) for d>0 is the representative of a modulo d in [0,d), also for negative a, whenever the intermediate sum is representable.", "quantifier": "every pair of longs", "why_tests_cant": "sign/overflow corners in a 128-bit input space", "anchors": ["libutils/misc_lib.c: UnsignedModulus"]}
{"id": "C56", "title": "String sets split and join at delimiters", "statement": "StringSetAddSplit adds exactly the delimiter-free pieces of the text (dropping only a final empty piece); StringSetToBuffer joins the elements with single delimiters.", "quantifier": "every text, delimiter and set history", "why_tests_cant": "unbounded input", "anchors": ["libutils/set.c: StringSetAddSplit, StringSetToBuffer"]}
{"id": "C57", "title": "RBTreeEqual compares contents", "statement": "RBTreeEqual is true exactly when both trees have the same size and, in iteration order, equal keys and values.", "quantifier": "every pair of reachable trees", "why_tests_cant": "unbounded histories", "anchors": ["libutils/rb-tree.c: RBTreeEqual"]}
{"id": "C58", "title": "RBTree destroys each pair exactly once", "statement": "Destructors run exactly once per pair handed to RBTreePut, and never on a pair still reachable.", "quantifier": "every history", "why_tests_cant": "double frees and leaks depend on the whole history", "anchors": ["libutils/rb-tree.c: RBTreePut, RBTreeRemove, RBTreeClear"]}
{"id": "C59", "title": "Nobody sleeps in WaitEmpty next to an empty queue", "statement": "Whenever the threaded queue is empty, no thread is blocked in ThreadedQueueWaitEmpty without having been woken.", "quantifier": "every schedule of any number of threads", "why_tests_cant": "requires particular schedules of condition variables", "anchors": ["libutils/threaded_queue.c: ThreadedQueueWaitEmpty, ThreadedQueuePop, ThreadedQueuePopN, ThreadedQueueClear"]}
{"id": "C60", "title": "BufferCompare is lexicographic order", "statement": "BufferCompare of two buffers in the same mode has the sign of the lexicographic comparison of their bytes (up to the first NUL in C-string mode) and is zero exactly on equal contents.", "quantifier": "all pairs of buffers, any contents and sizes", "why_tests_cant": "the order must be total and consistent on every pair of byte strings", "anchors": ["libutils/buffer.c: BufferCompare"]}
{"id": "C61", "title": "CSV parsing of arbitrary text is memory safe", "statement": "SeqParseCsvString on any NUL-terminated text returns a list of fields or NULL, without reading or writing outside its allocation and without reading uninitialised memory.", "quantifier": "all NUL-terminated texts", "why_tests_cant": "malformed texts are unbounded in number; the faulty ones need a particular order of quote, blank and separator", "anchors": ["libutils/csv_parser.c: LaunchCsvAutomata, SeqParseCsvString"]}
{"id": "C62", "title": "HTML rendering in mustache templates reads back", "statement": "Rendering a value into HTML appends to the output buffer a text in which <, >, \" and & appear only as entities and that decodes to exactly the value.", "quantifier": "all values (byte strings) and all buffers", "why_tests_cant": "escaping must hold for every byte string and every fill state of the buffer", "anchors": ["libutils/mustache.c: RenderHTMLContent"]}
{"id": "C63", "title": "Copy-or-hash keeps long strings distinguishable", "statement": "StringCopyTruncateAndHashIfNecessary copies a string that fits and returns its length; otherwise it fills the buffer exactly with a prefix, \"#MD5=\" and the hex MD5 digest of the whole string, and returns the buffer size.", "quantifier": "every string and buffer size above 37, every digest function", "why_tests_cant": "exact-fit and pointer arithmetic at every length", "anchors": ["libutils/hash.c: StringCopyTruncateAndHashIfNecessary"]}
{"id": "C64", "title": "Base name and quoting of paths", "statement": "Path_Basename is the position after the last slash, NULL when nothing follows it; Path_GetQuoted returns the path itself when already between quotes or made only of plain characters, else the path between double quotes.", "quantifier": "every path", "why_tests_cant": "unbounded input", "anchors": ["libutils/path.c: Path_Basename, Path_GetQuoted"]}
{"id": "C65", "title": "Prefix and suffix tests", "statement": "StringStartsWith and StringEndsWith(Case) decide whether one string is a prefix/suffix of the other (up to ASCII case for the Case variant) and read only inside the strings.", "quantifier": "every pair of strings", "why_tests_cant": "unbounded input", "anchors": ["libutils/string_lib.c: StringStartsWith, StringEndsWith, StringEndsWithCase"]}
{"id": "C66", "title": "String comparison is a consistent order", "statement": "StringCompare / StringEqual and their length-limited and case-insensitive variants agree: they order NULL first, then bytes lexicographically (after ASCII case folding for the IgnoreCase variants, up to n bytes for the N variants), are total, antisymmetric and transitive, and Equal is true exactly when Compare is zero; StringMatchesOption and IsStrIn follow them.", "quantifier": "every pair of strings, NULL included", "why_tests_cant": "order laws range over all pairs and triples", "anchors": ["libutils/string_lib.c: StringCompare, StringEqual, StringCompareN, StringEqualN, StringCompareIgnoreCase, StringEqualIgnoreCase, StringMatchesOption, IsStrIn"]}
{"id": "C67", "title": "Character replacement", "statement": "ReplaceChar copies its input with one character replaced; ReplaceTrailingChar replaces only a final occurrence; memcchr finds the first byte different from the given one.", "quantifier": "every string and buffer size", "why_tests_cant": "unbounded input", "anchors": ["libutils/string_lib.c: ReplaceChar, ReplaceTrailingChar, memcchr"]}
{"id": "C68", "title": "Character class tests", "statement": "StringIsNumeric, StringIsPrintable and EmptyString are true exactly when every character is a digit, printable, a blank; they read only up to the terminator.", "quantifier": "every C string", "why_tests_cant": "unbounded input", "anchors": ["libutils/string_lib.c: StringIsNumeric, StringIsPrintable, EmptyString"]}
{"id": "C69", "title": "String sequences survive a file round trip under any chunking", "statement": "SeqStringReadFile applied to the bytes SeqStringWrite/SeqStringWriteFile produced returns the same sequence, for every way the kernel splits the reads.", "quantifier": "every sequence of strings shorter than 10^9 bytes and every schedule of short reads", "why_tests_cant": "read chunking is chosen by the kernel", "anchors": ["libutils/string_sequence.c: ReadLenPrefixedString, WriteLenPrefixedString, SeqStringReadFile, SeqStringWrite"]}
{"id": "C70", "title": "Splitting a text into a string sequence", "statement": "SeqStringFromString returns exactly the pieces between delimiters, in order, so that joining them gives the text back; SeqStringContains and SeqStringLength agree with membership and total length.", "quantifier": "every text and delimiter", "why_tests_cant": "every position of delimiters", "anchors": ["libutils/string_sequence.c: SeqStringFromString, SeqStringContains, SeqStringLength"]}
{"id": "C71", "title": "JSON5 escaping denotes the data", "statement": "Json5EscapeDataWriter turns any byte sequence (NUL bytes included) into the body of a double-quoted JSON5 string that denotes exactly those bytes and is made of printable ASCII only.", "quantifier": "every byte sequence", "why_tests_cant": "every byte in every context", "anchors": ["libutils/json.c: Json5EscapeDataWriter, Json5EscapeData"]}
{"id": "C72", "title": "Every RFC 8259 text is parsed to its document", "statement": "JsonParse accepts every JSON text (blanks anywhere the grammar allows, all number forms, escapes) and returns the document the text denotes; nothing else is accepted.", "quantifier": "every text of the grammar", "why_tests_cant": "texts are unboundedly long and nested", "anchors": ["libutils/json.c: JsonParse, JsonParseAsArray, JsonParseAsObject, JsonParseAsString, JsonParseAsNumber"]}
{"id": "C73", "title": "JSON output is canonical", "statement": "Two elements that stand for the same document, whatever the order in which members were added, are written as the same text by JsonWrite and by JsonWriteCompact.", "quantifier": "every pair of elements with equal documents", "why_tests_cant": "insertion histories and nesting are unbounded", "anchors": ["libutils/json.c: JsonWrite, JsonWriteCompact, JsonSort, JsonElementPropertyCompare"]}
{"id": "C74", "title": "Lists leak nothing and destroy nothing twice", "statement": "After any sequence of list operations on any number of lists (with copies sharing storage until written), every node still allocated belongs to some live list, and once every list has been destroyed no node and no reference count object remains allocated; no operation ever destroys a node twice or touches a freed one.", "quantifier": "all histories of list operations over any number of lists and copies", "why_tests_cant": "A leak or double free depends on the interleaving of copies, detaches and destroys across lists; tests exercise a handful of interleavings.", "anchors": ["libutils/list.c: ListDestroy, ListDetach, ListCopy, ListRemove", "libutils/refcount.c"]}
{"id": "C75", "title": "A list iterator is a cursor over the list", "statement": "An iterator obtained from a list walks exactly the list's elements in order: First/Last/Next/Previous/HasNext/HasPrevious/Data behave as a cursor over the sequence, moving past an end is refused and leaves the cursor in place; after an element has been removed from the list, an old iterator is refused.", "quantifier": "all lists, all sequences of iterator calls", "why_tests_cant": "The property ranges over every list length and every path of the cursor.", "anchors": ["libutils/list.c: ListIteratorGet, ListIteratorFirst, ListIteratorLast, ListIteratorNext, ListIteratorPrevious, ListIteratorData, ListIteratorHasNext, ListIteratorHasPrevious"]}
{"id": "C76", "title": "The replacement search functions find the first or last occurrence", "statement": "On platforms without them, memmem, strstr and strcasestr return the first occurrence of the needle or NULL when there is none (strcasestr up to ASCII case), memrchr and strrstr the last one, strchrnul the first occurrence or the terminator; none reads outside its arguments.", "quantifier": "all haystacks, needles and characters", "why_tests_cant": "Every pair of strings, including overlapping and boundary occurrences, has to be right.", "anchors": ["libcompat/memmem.c: memmem", "libcompat/memrchr.c: memrchr", "libcompat/strstr.c: strstr", "libcompat/strcasestr.c: strcasestr", "libcompat/strrstr.c: strrstr", "libcompat/strchrnul.c: strchrnul"]}
{"id": "C77", "title": "The replacement copy and length functions copy exactly and stay in bounds", "statement": "strnlen(s, n) is the number of bytes before the terminator, at most n, and reads no further; strndup, strdup and memdup return a new block with exactly those bytes (and a terminator for the string functions); stpncpy(dst, src, n) writes exactly n bytes, the string cut at n and zeros, and returns the place of the first terminator or dst+n.", "quantifier": "all memories, strings and lengths", "why_tests_cant": "Off-by-one reads and writes depend on every combination of length and limit.", "anchors": ["libcompat/strnlen.c: strnlen", "libcompat/strndup.c: strndup", "libcompat/strdup.c: strdup", "libcompat/memdup.c: memdup", "libcompat/stpncpy.c: stpncpy"]}
{"id": "C78", "title": "Replacement case-insensitive comparison is a comparison of the lower-cased strings", "statement": "strcasecmp returns zero exactly for strings equal up to ASCII case, is antisymmetric and orders as the lower-cased strings do; strncasecmp(a, b, n) is strcasecmp of the strings cut at n bytes.", "quantifier": "all pairs of strings, all limits", "why_tests_cant": "An order relation has to hold for all pairs of strings, including bytes above 0x7f.", "anchors": ["libcompat/strcasecmp.c: strcasecmp", "libcompat/strncasecmp.c: strncasecmp"]}
{"id": "C79", "title": "The replacement strsep splits at every separator", "statement": "Calling strsep until it returns NULL yields exactly the pieces between separator characters, empty ones included, in order; every separator is overwritten by a terminator and nothing else in the string changes; no access leaves the string.", "quantifier": "all strings, all separator sets, all numbers of calls", "why_tests_cant": "The claim is about a whole sequence of calls on every string.", "anchors": ["libcompat/strsep.c: strsep"]}
{"id": "C80", "title": "The replacement getline returns every line of the stream", "statement": "Given NULL or a malloc'ed block of at least *n bytes, getline returns the length of the next line with its newline, stores exactly that line and a terminator, keeps *n at most the size of the block, and returns -1 at the end; repeated calls with the same buffer return lines that concatenate to the whole stream.", "quantifier": "all streams, all initial buffers, all sequences of calls", "why_tests_cant": "Buffer growth boundaries depend on the length of every line and the size of every initial buffer.", "anchors": ["libcompat/getline.c: getline, getdelim"]}
{"id": "C81", "title": "Rendering a Mustache template is memory safe and ends for every template and all data", "statement": "MustacheRender, for every NUL-terminated template and every JSON element built by the API, returns true or false (or ends the process with a fatal log message); it never reads or writes out of bounds, only appends to the output buffer, and leaves the data as it was but for the order of object members.", "quantifier": "all templates, all JSON data, all prior contents of the output buffer", "why_tests_cant": "Templates are arbitrary texts: sections that are not closed, delimiters changed in mid-section and names that denote nothing can be combined without end.", "anchors": ["libutils/mustache.c: MustacheRender, Render, NextTag, SetDelimiters, IsTagStandalone, ShouldIterateObject"]}
{"id": "C82", "title": "A Mustache template renders to what its tree of texts, variables, comments and sections evaluates to", "statement": "For the text of any well-formed template tree (default delimiters), MustacheRender appends exactly the text the tree evaluates to over the data: variables by name, dotted name, `.`, `@` or `-top-`, the five kinds of variable tags, sections and inverted sections over booleans, lists and objects, standalone lines removed; or fails where the evaluation does.", "quantifier": "all well-formed template trees of any depth, all JSON data in key order (any data if nothing is serialised)", "why_tests_cant": "Evaluation is recursive over both template and data, which are unbounded.", "anchors": ["libutils/mustache.c: Render, RenderVariable, LookupVariable, ShouldIterateObject"]}
{"id": "C83", "title": "Names in a Mustache template are resolved in the sections that lexically enclose them", "statement": "A section's element is a scope for the text between its opening and closing tag only; what a template shows after a section does not depend on the members of the section's element, and nothing inside a section that is not rendered is shown.", "quantifier": "all templates, all JSON data", "why_tests_cant": "Scoping errors show only for particular combinations of nesting and data.", "anchors": ["libutils/mustache.c: Render, LookupVariable"]}
{"id": "C84", "title": "Escaped variables cannot inject markup; other text is copied verbatim", "statement": "`{{x}}` renders a string with & \" < > replaced by entities: the result contains no raw < > \", every & begins an entity, and different strings give different results; `{{{x}}}` and `{{&x}}` render it verbatim; text without tags is copied verbatim; comments render nothing.", "quantifier": "all strings, all names, all templates", "why_tests_cant": "It must hold for every string value.", "anchors": ["libutils/mustache.c: RenderHTMLContent, RenderVariablePrimitive, RenderContent"]}
{"id": "C85", "title": "inet_pton/inet_ntop replacement: IPv4", "statement": "For every string, inet_pton(AF_INET) returns 1 exactly for dotted quads of four decimal numbers up to 255 (leading zeros allowed) and then stores those four bytes; otherwise it returns 0 and stores nothing. inet_ntop(AF_INET) writes the canonical dotted quad and its terminator if they fit in size bytes and otherwise writes nothing and returns NULL; what it writes reads back as the same address.", "quantifier": "all strings, all addresses, all destination buffers and sizes", "why_tests_cant": "the set of strings and sizes is infinite; acceptance is an if-and-only-if over all of them", "anchors": ["libcompat/inet_pton.c: inet_pton, inet_pton4", "libcompat/inet_ntop.c: inet_ntop, inet_ntop4"]}
{"id": "C86", "title": "inet_ntop replacement: IPv6 text", "statement": "For every sixteen bytes, inet_ntop(AF_INET6) writes the recommended text (lower case, no leading zeros, the first longest run of at least two zero words as '::', IPv4-mapped and IPv4-compatible addresses with a dotted quad) where it fits with its terminator, at most 46 bytes, and otherwise writes nothing and returns NULL; that text denotes the address and is unique.", "quantifier": "all 2^128 addresses, all buffers and sizes", "why_tests_cant": "2^128 inputs times sizes; internal buffer of 46 bytes must never overflow", "anchors": ["libcompat/inet_ntop.c: inet_ntop, inet_ntop6"]}
{"id": "C87", "title": "inet_pton replacement: IPv6 text", "statement": "Where compiled in, inet_pton(AF_INET6) is memory safe for every string, stores the right address for every text form of RFC 4291 (groups of any case, '::' anywhere, trailing dotted quad), and reads back what inet_ntop prints. The accepted language is characterised exactly, including the malformed texts it takes (a trailing colon; eight groups and a '::', whose later groups are lost). Without the macro INET6, which nothing defines, it returns -1 for every string.", "quantifier": "all strings", "why_tests_cant": "infinitely many strings; the shifting loop overlaps its own source", "anchors": ["libcompat/inet_pton.c: inet_pton, inet_pton6"]}
{"id": "C88", "title": "JsonParse accepts exactly one grammar", "statement": "On every C string, JsonParse succeeds exactly when the string starts, after blanks, with a text of an explicitly given unambiguous grammar; it returns the document that text denotes and leaves the position on its last character. The grammar contains RFC 8259 and the deviations of the library (optional commas and colons, trailing commas, unquoted keys, double unescaping); anything else, such as leading commas in arrays, keys without values, 00 or 1.2.3, is reported as an error.", "quantifier": "all NUL-free strings, all nesting depths", "why_tests_cant": "the set of malformed texts is infinite; a test can only show that some are rejected", "anchors": ["libutils/json.c: JsonParse, JsonParseAsArray, JsonParseAsObject, JsonParseAsNumber, JsonParseAsString, JsonParseAsPrimitive, unquoted_key_with_colon"]}
{"id": "C89", "title": "Sparse copies", "statement": "FileSparseCopy to a new file followed by FileSparseClose, whatever way the reads, writes and seeks are split, interrupted or fail: wherever the process is killed the destination holds a prefix of the source (during the close possibly plus one zero byte); the copy fails only if a call fails; if both return true the destination holds exactly the source, however many zero bytes it contains or ends with. A destination that is not empty, or a descriptor not at its start, is corrupted silently.", "quantifier": "all contents, block sizes, completions of system calls and crash points", "why_tests_cant": "the interleavings of short reads, interrupted calls, holes and crash points are unbounded", "anchors": ["libutils/file_lib.c: FileSparseWrite, FileSparseCopy, FileSparseClose, FullRead, FullWrite", "libutils/string_lib.c: memcchr"]}
{"id": "C90", "title": "File_Copy is all or reported", "statement": "File_Copy between two different files: wherever the process is killed the destination holds a prefix of the source and no other file changed; it returns true only if the destination holds exactly the source, and false only if a call failed. Copying a file onto itself empties it and reports success.", "quantifier": "all contents, all completions, splits and failures of the stdio calls, all flush times and crash points", "why_tests_cant": "the error can come at any of unboundedly many calls, including the final close", "anchors": ["libutils/file_lib.c: File_Copy"]}
{"id": "C91", "title": "Reading a file line by line", "statement": "CfReadLines appends exactly the lines of the stream without their newlines, an unterminated last line included, and returns their number; on a read error it returns -1 with the lines before; the buffer is never overrun, whatever its initial size. Passing NULL for the buffer, which the header allows, dereferences NULL.", "quantifier": "all streams, all initial buffers and sizes, read errors at any point", "why_tests_cant": "line lengths and the growth of the buffer are unbounded", "anchors": ["libutils/file_lib.c: CfReadLine, CfReadLines", "libcompat/getline.c: getdelim"]}
{"id": "C92", "title": "File locks exclude other processes", "statement": "While a process holds an exclusive FileLock on a file (its locking call returned 0, and it has neither unlocked nor died), no other process holds a shared or exclusive one; an attempt returns 0 exactly when nobody holds an excluding lock; a waiting call survives interruptions and never gives up because of a conflict; locks of crashed processes block nobody; ExclusiveFileLockCheck tells whether another process holds a lock. Needed: one FileLock per file and process - a second one silently voids the first. A refused ...LockPath call leaks its descriptor each time.", "quantifier": "all numbers of processes, all interleavings of their system calls, interruptions, failures and crashes", "why_tests_cant": "schedules and crash points cannot be enumerated by tests", "anchors": ["libutils/file_lib.c: LockFD, UnlockFD, ExclusiveFileLock, SharedFileLock, ExclusiveFileLockCheck, ExclusiveFileUnlock, SharedFileUnlock, ExclusiveFileLockPath, SharedFileLockPath"]}
{"id": "C93", "title": "JsonSelect follows the path", "statement": "JsonSelect returns exactly the element that the given keys and decimal array positions lead to, and NULL if they lead nowhere; an array position given as an empty text or as a number of 2^63 or more ends the process.", "quantifier": "all documents, all paths", "why_tests_cant": "documents and paths are unbounded; the failing indices are only found by looking at all texts", "anchors": ["libutils/json.c: JsonSelect, JsonObjectGet, JsonArrayGet", "libutils/string_lib.c: StringIsNumeric, StringToLongExitOnError"]}
{"id": "C94", "title": "JsonWalk visits everything once, in document order", "statement": "JsonWalk calls, for the element and everything below it, parents before children and children in order, the visitor for its kind exactly once, until a visitor returns false; the result tells whether the walk was completed.", "quantifier": "all documents, all visitors and visitor states, NULL visitors included", "why_tests_cant": "nesting depth and visitor behaviour are unbounded", "anchors": ["libutils/json.c: JsonWalk"]}
{"id": "C95", "title": "A JSON iterator is a cursor over the children", "statement": "For every sequence of calls, an iterator hands out the children of its container in order, each once, then NULL; the filter by type and nulls skips exactly the others; current value, current key and HasMore agree with what was handed out.", "quantifier": "all containers, all sequences of iterator calls", "why_tests_cant": "the interleavings of filtered and unfiltered steps are unbounded", "anchors": ["libutils/json.c: JsonIteratorInit, JsonIteratorNextValue, JsonIteratorNextKey, JsonIteratorNextValueByType, JsonIteratorCurrentValue, JsonIteratorCurrentKey, JsonIteratorHasMore"]}
{"id": "C96", "title": "A JSON array is a list", "statement": "For every history of appends, extensions with another array, range removals and reversals the array holds the elements a list would hold; removed elements are destroyed, elements taken over are not; reads and the test for primitives agree with the list; out-of-bounds ranges are refused.", "quantifier": "all histories, all initial capacities", "why_tests_cant": "histories (and so the growth of the underlying storage) are unbounded", "anchors": ["libutils/json.c: JsonArrayAppendElement, JsonArrayExtend, JsonArrayRemoveRange, JsonArrayGet, JsonArrayContainsOnlyPrimitives, JsonContainerReverse", "libutils/sequence.c"]}
{"id": "C97", "title": "JSON primitives read back what was put in", "statement": "A boolean, string or 64-bit integer stored in a primitive is returned unchanged by the typed accessors and printed as its text.", "quantifier": "all booleans, strings, 64-bit integers", "why_tests_cant": "2^64 integers and all strings", "anchors": ["libutils/json.c: JsonPrimitiveGetAsBool, JsonPrimitiveGetAsInteger, JsonPrimitiveGetAsInt64, JsonPrimitiveGetAsInt64DefaultOnError, JsonPrimitiveGetAsString, JsonPrimitiveToString"]}
{"id": "C98", "title": "snprintf never writes outside the buffer, always terminates it, and returns the length of the whole text", "statement": "For every format and arguments, the replacement vsnprintf/snprintf writes only inside the given size, puts a NUL there whenever size > 0, the bytes before it are the longest prefix of one text that does not depend on the buffer, and the value returned is the length of that text (or -1 when it does not fit an int or a width/precision is too large), also with a NULL buffer or size 0.", "quantifier": "every format string, argument list, locale separator, buffer and size", "why_tests_cant": "format strings and buffer sizes are unbounded", "anchors": ["libcompat/snprintf.c: rpl_vsnprintf, fmtstr, fmtint, OUTCHAR"]}
{"id": "C99", "title": "snprintf's text is the one C99 prescribes", "statement": "The replacement snprintf prints integers, characters and strings as C99 7.19.6.1 prescribes for every combination of flags, width, precision and length modifier.", "quantifier": "every format of ordinary characters, %% and d i u o x X c s directives, every argument values", "why_tests_cant": "unbounded combinations of directives and values", "anchors": ["libcompat/snprintf.c: rpl_vsnprintf, fmtstr, fmtint, convert, getnumsep"]}
{"id": "C100", "title": "asprintf returns the whole text in a block of its size", "statement": "asprintf/vasprintf store a new string holding exactly the text snprintf would print into a large enough buffer and return its length; on failure they return -1 and store no string.", "quantifier": "every format string and argument list, memory available or not", "why_tests_cant": "format strings are unbounded", "anchors": ["libcompat/snprintf.c: rpl_vasprintf, rpl_asprintf"]}
{"id": "C101", "title": "getopt reads a command line left to right", "statement": "Calling the replacement getopt, getopt_long or getopt_long_only until -1 gives, for every command line, option string and table of long options, exactly the options of the words read left to right (clusters of short options, attached, separate, optional and missing arguments, unknown options, exact and abbreviated long names, --, and the three orderings), touches no word beyond the vector, and leaves optind at the first operand.", "quantifier": "every argument vector, option string, long option table, POSIXLY_CORRECT setting and stale static state", "why_tests_cant": "command lines and option strings are unbounded and each call depends on the static state left by all earlier ones", "anchors": ["libcompat/getopt.c: _getopt_internal, exchange, _getopt_initialize, getopt", "libcompat/getopt1.c: getopt_long, getopt_long_only"]}
{"id": "C102", "title": "getopt's permutation loses nothing and keeps order", "statement": "Every call of getopt leaves the same words in argv; after the last call the vector is the program name, then the options with their arguments, then the operands, each in the order in which they were given.", "quantifier": "every argument vector and option string; single calls from every state", "why_tests_cant": "the in-place exchange of segments depends on the lengths of both segments, which are unbounded", "anchors": ["libcompat/getopt.c: exchange, _getopt_internal"]}
{"id": "C103", "title": "Search and replace rewrites exactly the matches", "statement": "BufferSearchAndReplace leaves the buffer with each match (all matches of the left-to-right search with option g, else the first) replaced by the text its replacement stands for ($n, \\n, $&, $+, escapes), everything else unchanged and every byte initialised, and the number of matches; the search ends, the matches do not overlap, an error of the matcher is returned; no access outside the arrays or the result.", "quantifier": "every pattern (any matcher that keeps PCRE's contract), subject, replacement and option string", "why_tests_cant": "subjects, replacements and numbers of matches are unbounded; the size of the result is computed in one pass and filled in another", "anchors": ["libutils/pcre_wrap.c: pcre_wrap_compile_replacement, pcre_wrap_execute, pcre_wrap_parse_perl_options", "libutils/buffer.c: BufferSearchAndReplace"]}
{"id": "C104", "title": "Replacement texts can be written literally", "statement": "A replacement without backslashes and dollars stands for itself, any text stands for itself once those are quoted with a backslash, and when nothing matches the buffer is unchanged whatever the replacement.", "quantifier": "all replacement texts, subjects and patterns", "why_tests_cant": "texts are unbounded", "anchors": ["libutils/pcre_wrap.c: pcre_wrap_compile_replacement, pcre_wrap_execute"]}
{"id": "C105", "title": "A list's mutable iterator is a cursor that edits the sequence", "statement": "Take any history of list calls and a non-empty list in it that does not share its nodes with a copy. ListMutableIteratorGet opens an iterator on its first element (a second one is refused, and one on an empty list). Every history of First, Last, Next, Previous, Data, HasNext, HasPrevious, Prepend, Append and Remove on the iterator, and of ListRemove on the list under it, touches no freed memory and answers what an index into a sequence answers: Prepend and Append insert just before and just behind the element the iterator is on, Remove takes that element out and goes to the next or else the previous one and refuses on the only element, ListRemove moves the iterator the same way if it removes its element, and invalidates it with the last one. Afterwards the list reads back as the edited sequence and every other list as it was.", "quantifier": "every history of list calls, every list in it, every history of iterator calls, every element values and comparison function", "why_tests_cant": "a test edits a short list at one position", "anchors": ["libutils/list.c: ListMutableIteratorGet, ListMutableIteratorFirst, ListMutableIteratorLast, ListMutableIteratorNext, ListMutableIteratorPrevious, ListMutableIteratorData, ListMutableIteratorRemove, ListMutableIteratorPrepend, ListMutableIteratorAppend, ListMutableIteratorHasNext, ListRemove"]}
{"id": "C106", "title": "safe_chown and safe_lchown change the owner of the file the path leads to, safely", "statement": "safe_lchown changes the owner and group of the object the last name of the path denotes (a link itself), safe_chown those of the object the whole path leads to, after checking along the way that every link is root's, the running user's, or has the owner and group of what it leads to. Whatever other processes do between the system calls, at most one object is changed, nothing on failure, and no descriptor is leaked.", "quantifier": "every path, owner, group, filesystem and every change others make between any two system calls", "why_tests_cant": "a test has one filesystem and nobody racing", "anchors": ["libutils/file_lib.c: safe_chown, safe_lchown, safe_chown_impl, safe_open_true_parent_dir"]}
{"id": "C107", "title": "safe_chmod sets the mode of the file the path leads to, safely", "statement": "safe_chmod sets the mode of the object the path leads to, reached with every component checked; FIFOs and sockets, which must not be opened, are changed with the rights of their owner only, so that replacing them by a link to somebody else's file does not change that file. No owner, name or content changes and no descriptor is leaked, whatever other processes do between the system calls.", "quantifier": "every path, mode, filesystem and every change others make between any two system calls", "why_tests_cant": "a test has one filesystem and nobody racing", "anchors": ["libutils/file_lib.c: safe_chmod, safe_open_true_parent_dir, safe_open"]}
{"id": "C108", "title": "DeleteDirectoryTree deletes what is below the directory and nothing else", "statement": "DeleteDirectoryTree empties the directory and everything below it and keeps the directory itself; links in the tree are removed, not followed, and nothing outside the tree changes. A directory that is not there counts as deleted. Whatever other processes do, no descriptor is leaked and the call ends.", "quantifier": "every filesystem, path and tree, and (for descriptors and termination) every change others make between any two system calls", "why_tests_cant": "a test deletes one small tree with nobody interfering", "anchors": ["libutils/file_lib.c: DeleteDirectoryTree, DeleteDirectoryTreeInternal", "libutils/unix_dir.c: DirOpen, DirRead, DirClose"]}
{"id": "C109", "title": "safe_fopen opens the file for what the mode says; safe_creat and safe_chdir", "statement": "For every standard mode ('r', 'w' or 'a', then any of '+', 'b', 't', 'x'), safe_fopen opens the file along the path as safe_open does (every component checked), for reading and writing, creating, emptying and insisting on a new file exactly as the mode says; the stream starts at the end for 'a' and at the beginning otherwise; a failing call leaves no descriptor behind. safe_creat is safe_open for writing with creation and truncation. safe_chdir goes to the checked directory, changes nothing and leaves no descriptor behind.", "quantifier": "every mode, path, filesystem and every change others make between any two system calls", "why_tests_cant": "there are many modes, and a test has one filesystem and nobody racing", "anchors": ["libutils/file_lib.c: safe_fopen, safe_fopen_create_perms, safe_creat, safe_chdir"]}
{"id": "C110", "title": "A log message goes exactly where its own thread's levels and hook say", "statement": "After any history of logging calls of any threads, a message of a thread goes to standard output exactly if it is at least as important as the thread's report level, to syslog exactly if at least as important as its log level and more than verbose, and to the thread's hook exactly if it goes somewhere or the hook's own level asks for it; the levels are those the thread set last, or the global level when it first used logging; other threads' settings do not matter. What is written is the message without its final end of line, as changed by the hook, in the documented line format. WouldLog answers true exactly if the message would cause anything. LogRaw logs bytes with '.' for unprintable ones by the same rule.", "quantifier": "every history of calls by every set of threads, every level, message, hook, prefix and buffer", "why_tests_cant": "histories, threads and messages are unbounded", "anchors": ["libutils/logging.c: VLog, Log, WouldLog, LogRaw, LogDebug, LogToConsole, LogToSystemLog, GetCurrentThreadContext, LogSetGlobalLevel, LoggingPrivSetLevels, LoggingPrivSetContext, LoggingSetColor, LoggingFreeCurrentThreadContext"]}
{"id": "C111", "title": "LogLevelFromString accepts the prefixes of the level names", "statement": "LogLevelFromString returns a level exactly for the non-empty prefixes, in any case, of its name (critical, errors, warnings, notices, information, verbose, debug) and LOG_LEVEL_NOTHING for every other string; the name printed for a level is read back as that level. LogSetGlobalLevelArgOrExit with such a string sets the global and the thread's levels to that level, and ends the program with any other string.", "quantifier": "every string", "why_tests_cant": "the strings rejected are infinitely many", "anchors": ["libutils/logging.c: LogLevelFromString, LogLevelToString, LogSetGlobalLevelArgOrExit"]}
{"id": "C112", "title": "LogEnableModulesFromString enables the modules listed and restores the string", "statement": "For every comma-separated list: exactly the modules named (all of them for 'all') are additionally enabled, up to a token 'help', which makes the call return false; tokens nobody knows are warned about, in order; the string, which is changed while parsing, is as before, and nothing outside it is touched.", "quantifier": "every string and every set of modules enabled before", "why_tests_cant": "strings are unbounded", "anchors": ["libutils/logging.c: LogEnableModulesFromString, LogModuleFromString, LogEnableModule, LogModuleEnabled"]}
{"id": "C113", "title": "Readable byte counts are the count rounded down to the printed unit", "statement": "byte_magnitude and byte_unit together give the count rounded down to the largest unit of which there are more than eight.", "quantifier": "every count", "why_tests_cant": "2^64 counts", "anchors": ["libutils/logging.c: byte_magnitude, byte_unit"]}
{"id": "C114", "title": "Digests are of exactly the data, however it is read", "statement": "HashNew and HashString give the digest of exactly the bytes passed in; HashNewFromDescriptor and HashFile the digest of everything up to the end of the file, however the reads cut it into pieces; the object shows its method, length, bytes and printable form, the caller's array has the digest followed by zeros. Digests that OpenSSL does not support give NULL or zeros. Failing reads do no harm.", "quantifier": "all data, all methods, all ways of cutting reads", "why_tests_cant": "contents and read sizes are unbounded", "anchors": ["libutils/hash.c: HashNew, HashNewFromDescriptor, HashString, HashFile, HashFile_Stream, HashData, HashPrintable, HashType, HashLength"]}
{"id": "C115", "title": "Hashes compare, copy and are named consistently", "statement": "HashEqual answers true exactly for the same method and the same digest; HashCopy makes a hash that shows the same; HashIdFromName knows exactly the names HashNameFromId gives, each for its method.", "quantifier": "all hashes and names", "why_tests_cant": "digests and names are unbounded", "anchors": ["libutils/hash.c: HashEqual, HashCopy, HashIdFromName, HashNameFromId"]}
{"id": "C116", "title": "The digest of a key is that of its modulus and exponent", "statement": "HashNewFromKey and HashPubKey give the digest of the modulus followed by the exponent, both as big-endian bytes without leading zeros, whichever is longer, and touch nothing outside the buffer both go through.", "quantifier": "all keys and methods", "why_tests_cant": "keys are unbounded numbers", "anchors": ["libutils/hash.c: HashNewFromKey, HashPubKey"]}
{"id": "C117", "title": "The threaded stack is linearizable under every interleaving of memory accesses", "statement": "Any number of threads pushing, popping, counting, copying one threaded stack, interleaved between any two accesses to its memory: every call looks as if it happened at one instant between its call and its return, on a last-in first-out stack; nothing is lost, invented or delivered twice, a copy is a snapshot; no access leaves the array, no mutex is released by a thread not holding it, and some thread can always go on.", "quantifier": "all numbers of threads, calls, capacities and schedules at the granularity of single memory accesses", "why_tests_cant": "a unit test runs one schedule chosen by the operating system", "anchors": ["libutils/threaded_stack.c:ThreadedStackPush", "libutils/threaded_stack.c:ThreadedStackPop", "libutils/threaded_stack.c:ThreadedStackCopy", "libutils/stack.c:StackPush", "libutils/mutex.c:__ThreadLock"]}
{"id": "C118", "title": "Open files passed over a local socket arrive in order, each with its own text, and none leaks", "statement": "PassOpenFile_Put and PassOpenFile_Get make a first-in first-out channel: each Get returns a descriptor for the next file put and exactly the text put with it (NULL for NULL, empty for empty); it fails when the sender has closed or no descriptor can be opened; descriptors are opened in the receiver for the returned files only; whatever a peer sends, receiving is memory safe.", "quantifier": "all histories of puts, gets, failures and closing, all texts of at most 1023 bytes; for the safety part all messages a peer can send", "why_tests_cant": "tests pass a few files with short texts between cooperating processes", "anchors": ["libutils/passopenfile.c:PassOpenFile_Put", "libutils/passopenfile.c:PassOpenFile_Get"]}
{"id": "C119", "title": "Regular expression matching reports the match, the groups and their names", "statement": "With whatever PCRE finds: StringMatch gives true and the offsets of the match, StringMatchFull true exactly for a match of the whole text, CompareStringOrRegex falls back to equality; the captures are the whole match and then every group in order, each with its name or number, groups that took no part being empty; the JSON object made from them has each group's text under its name or number and nothing else.", "quantifier": "every pattern, text and match PCRE can report", "why_tests_cant": "patterns, numbers of groups and texts are unbounded", "anchors": ["libutils/regex.c: StringMatchWithPrecompiledRegex, StringMatchFullWithPrecompiledRegex, StringMatchCapturesWithPrecompiledRegex, CompareStringOrRegex, RegexPartialMatch", "libutils/string_lib.c: StringCaptureData"]}
{"id": "C120", "title": "Key-value files are given line by line to the user function", "statement": "ParseKeyValue gives the user function, in order, what is before and after the first colon of each line; it stops and fails at a line without a colon, at a refusal by the function, and at a read error. ParseKeyValueNumeric does the same with numbers.", "quantifier": "every file, user function and state", "why_tests_cant": "files are unbounded", "anchors": ["libutils/proc_keyvalue.c: ParseKeyValue, ParseKeyValueNumeric"]}
{"id": "C121", "title": "Sets of strings and JSON arrays convert into each other", "statement": "JsonArrayToStringSet gives the set of exactly the texts of the items of an array of primitives, and none for other elements; StringSetToJson gives an array with every member exactly once; the two are inverse.", "quantifier": "every JSON element and every history of a set", "why_tests_cant": "arrays and histories are unbounded", "anchors": ["libutils/set.c: StringSetToJson, JsonArrayToStringSet, VisitArray, VisitArrayItem"]}
{"id": "C122", "title": "YAML texts are read as the JSON documents they stand for", "statement": "JsonParseYamlString gives, for the first document of a YAML text, the JSON document it stands for: sequences are arrays in order, mappings objects (the last of equal keys winning), plain scalars are null, booleans, numbers or strings by the YAML rules, quoted ones strings; whatever prefix of a well-formed text the YAML library gets through, nothing ends the process while reading it.", "quantifier": "every well-formed YAML event sequence, of any depth and length, and every prefix of one", "why_tests_cant": "documents are unbounded trees", "anchors": ["libutils/json-yaml.c: JsonParseYamlString, JsonParseYamlData, JsonParseYamlScalarValue, JsonParseYamlStore"]}
{"id": "C123", "title": "ENV files are read as objects of their last definitions", "statement": "JsonParseEnvFile binds each name to the value the last line about it gives (among the first lines that together do not exceed the limit), and nothing else; comments, blank and malformed lines are skipped; it fails exactly when the file cannot be opened or reading fails before the limit is passed.", "quantifier": "every file, limit and place at which reading fails", "why_tests_cant": "files are unbounded", "anchors": ["libutils/json-utils.c: JsonParseEnvFile, ParseEnvLine", "libutils/file_lib.c: CfReadLine"]}
{"id": "C124", "title": "CSV files are read as the array of their records", "statement": "JsonParseCsvFile splits every file into records in one way only (CR LF outside quotes), and gives the array of the fields of those that can be taken apart, in order, up to the limit; a document written by CsvWriter is read back as the records written.", "quantifier": "every file, limit, place at which reading fails; every list of records", "why_tests_cant": "files are unbounded", "anchors": ["libutils/json-utils.c: JsonParseCsvFile", "libutils/csv_parser.c: GetCsvLineNext, SeqParseCsvString"]}
{"id": "C125", "title": "Data files are read according to their kind, completely or not at all", "statement": "JsonReadDataFile gives the array or object the file stands for, whatever the sizes in which its bytes arrive, and NULL if it cannot be opened or read, is larger than the limit, is not well-formed or is not an array or object. The kind is told by its name or by the ending of the file name in any case, JSON being the default.", "quantifier": "every file, limit, schedule of reads, kind", "why_tests_cant": "files and schedules are unbounded", "anchors": ["libutils/json-utils.c: JsonReadDataFile, GetDataFileTypeFromString, GetDataFileTypeFromSuffix, DataFileTypeToString", "libutils/json.c: JsonParseAnyFile", "libutils/file_lib.c: FileRead, FileReadFromFd"]}
{"id": "C126", "title": "Threaded deque is linearizable under every schedule", "statement": "For any number of threads calling the functions of threaded_deque.h (pushes, pops at both ends with any timeout, pops of several items, count, capacity, is-empty, wait-empty, copy), with their memory accesses interleaved in any way and waits ending by signal, timeout or for no reason, the history of calls and returns is linearizable for a sequential deque; a blocking call without a time limit returns only once it could do its work; no schedule reaches undefined behaviour, releases a mutex it does not hold, or deadlocks on the mutex.", "quantifier": "every number of threads, every schedule of single memory accesses, every capacity and history of calls", "why_tests_cant": "races and missed unlocks show up only under particular interleavings", "anchors": ["libutils/threaded_deque.c", "libutils/mutex.c: __ThreadLock, __ThreadUnlock, __ThreadWait"]}
{"id": "C127", "title": "Threaded deque never loses a wake-up", "statement": "Whenever every thread is outside of the deque or asleep in it, no thread sleeps for items while the deque holds some (provided nobody asks PopLeftN/PopRightN for zero items with a wait), and no thread sleeps in ThreadedDequeWaitEmpty while it is empty.", "quantifier": "every number of threads, every schedule of single memory accesses", "why_tests_cant": "a lost wake-up needs a particular interleaving and shows as a hang", "anchors": ["libutils/threaded_deque.c: ThreadedDequePushLeft, ThreadedDequePushRight, ThreadedDequePopLeft, ThreadedDequePopRight, ThreadedDequeWaitEmpty"]}
{"id": "C128", "title": "Threaded queue is linearizable under every schedule", "statement": "For any number of threads calling the functions of threaded_queue.h (push, push of several items, pop and pop of several items with any timeout, clear, clear-and-push, count, capacity, is-empty, wait-empty, copy), with their memory accesses interleaved in any way and waits ending by signal, timeout or for no reason, the history of calls and returns is linearizable for a sequential FIFO queue; no schedule reaches undefined behaviour or a failed assertion, releases a mutex it does not hold, or deadlocks on the mutex.", "quantifier": "every number of threads, every schedule of single memory accesses, every capacity and history of calls", "why_tests_cant": "races and missed unlocks show up only under particular interleavings", "anchors": ["libutils/threaded_queue.c", "libutils/mutex.c"]}
{"id": "C129", "title": "Threaded queue never loses a wake-up", "statement": "Whenever every thread is outside of the queue or asleep in it, no thread sleeps for items while the queue holds some, and no thread sleeps in ThreadedQueueWaitEmpty while it is empty. (The first half fails for ThreadedQueuePushN of several items, which signals once, and for ThreadedQueuePopN of zero items, which uses up a signal.)", "quantifier": "every number of threads, every schedule of single memory accesses", "why_tests_cant": "a lost wake-up needs a particular interleaving and shows as a hang", "anchors": ["libutils/threaded_queue.c"]}
{"id": "C130", "title": "openat and its relatives act in the right directory and leave no trace", "statement": "For the replacements of openat, fstatat, fchownat, fchmodat and readlinkat called by any number of threads in any interleaving, while the program opens and closes descriptors of its own and any system call may fail at any time: each call performs exactly one underlying system call, with the caller's arguments, in the directory its descriptor refers to (or the current directory for AT_FDCWD) and returns its result; or it returns -1 having performed none, or after failing to come back. Descriptors of the program are never closed or replaced, none is leaked, and when nobody is in a call the working directory is the one the process had, unless a failure to come back was reported.", "quantifier": "every number of threads, every interleaving of their steps, every pattern of failing system calls, every descriptor table and working directory", "why_tests_cant": "Changing the working directory is process-wide; the failures and interleavings in which it is observable are not reproducible by tests", "anchors": ["libcompat/generic_at.c:generic_at_function", "libcompat/openat.c:openat", "libcompat/fstatat.c:fstatat", "libcompat/fchownat.c:fchownat", "libcompat/fchmodat.c:fchmodat", "libcompat/readlinkat.c:readlinkat"]}
{"id": "C131", "title": "openat and its relatives never block for good", "statement": "In every reachable state in which some thread is inside one of the five functions, some thread in them can make its next step, whatever its system calls return, and a call takes at most nine steps of its own thread.", "quantifier": "every reachable state of every interleaving, every failure pattern", "why_tests_cant": "A forgotten unlock on one failure path shows only under that failure and a second caller", "anchors": ["libcompat/generic_at.c:generic_at_function"]}
{"id": "C132", "title": "snprintf prints floating-point numbers as C99 prescribes", "statement": "For every format made of ordinary characters and C99 conversions including e, E, f, F, g, G with any flags, width and precision, and every double (or long double) argument, the replacement snprintf stores the text C99 prescribes: sign, digits that are the value rounded to the requested number of places (up to the rounding error of the 64-bit long double arithmetic), point, exponent of at least two digits, the choice of style for g, removal of trailing zeros, padding; infinities and NaN by name. Deviations are identified: numbers of 2^64-1 and more with f give -1, more than 19 digits are cut, exponents beyond 99 are wrong, negative zero loses its sign, a is not hexadecimal.", "quantifier": "all formats of the grammar, all flag/width/precision combinations, all finite doubles in the stated range plus infinities and NaN, all buffers and sizes", "why_tests_cant": "There are 2^64 doubles and unboundedly many formats; the decimal exponent is found by repeated rounded multiplication, and a wrong result can only show for the few doubles next to a power of ten.", "anchors": ["libcompat/snprintf.c:fmtflt", "libcompat/snprintf.c:getexponent", "libcompat/snprintf.c:mypow10", "libcompat/snprintf.c:myround", "libcompat/snprintf.c:cast", "libcompat/snprintf.c:rpl_vsnprintf"]}
{"id": "C133", "title": "JSON elements own their memory: the API behaves as on plain values", "statement": "For every sequence of calls that create elements, append, put, extend, remove, detach, reverse, copy, merge and destroy them, at any depth of any of the trees the program holds, as long as the program uses no element it has given away: no call touches freed memory, frees a block twice or frees a string constant; every element the program still holds reads exactly as if elements were plain values (a copy shares nothing with its original, an appended element is moved); and destroying what the program still holds, in any order, releases every block. Exception shown by witness: a key that is the name stored in the element added, or in the child being replaced, is read after it is freed.", "quantifier": "every finite sequence of calls over any number of trees, of any shape and depth; every order of destruction", "why_tests_cant": "a leak or double free needs the right history of copies, detaches and merges; no set of tests covers every history", "anchors": ["libutils/json.c:JsonDestroy", "libutils/json.c:JsonObjectAppendElement", "libutils/json.c:JsonObjectDetachKey", "libutils/json.c:JsonArrayExtend", "libutils/json.c:JsonCopy", "libutils/json.c:JsonMerge", "libutils/json.c:JsonElementSetPropertyName"]}
{"id": "C134", "title": "The JSON parser allocates exactly what it returns", "statement": "For every text: when JsonParse succeeds, the element returned is new, has the value parsed, everything else in memory is as before, and destroying it frees all that the parser allocated; when it fails, nothing it allocated remains. The same for JsonParseFile, which also frees the text read. Exceptions, with witnesses: a string that does not end inside an array loses the array (and never more than one array); a file cut at the size limit loses its text; *json_out is set to NULL on some errors and left alone on others.", "quantifier": "every text, every state of the heap", "why_tests_cant": "every position where a text can be malformed is another exit path with its own cleanup; leaks do not show in results", "anchors": ["libutils/json.c: JsonParse, JsonParseWithLookup, JsonParseAsArray, JsonParseAsObject, JsonParseAsString, JsonParseAsNumber, JsonParseAsPrimitive, JsonParseAnyFile"]}
{"id": "C135", "title": "Hexadecimal addresses are read digit for digit", "statement": "IPAddressNewHex reads every IPv4 address and port exactly as /proc/net/tcp prints it (little-endian words), eight digits without port as port 0, and 32 digits as the eight groups of an IPv6 address in order, with a colon and four digits the port; upper and lower case alike; texts of other lengths are refused. IPAddressIsIPAddress is true exactly for what IPAddressNew accepts, hands out the same object when asked to and leaves nothing else allocated. Exceptions, with witnesses: what /proc/net/tcp6 prints is read with the bytes of each word reversed; without a port the port of an IPv6 address is uninitialised; blanks and signs are accepted.", "quantifier": "every address and port, every text", "why_tests_cant": "2^48 addresses; byte order errors do not show for addresses that are palindromes of bytes", "anchors": ["libutils/ip_address.c:IPAddressNewHex, IPV4_hex_parser, IPV6_hex_parser, IPAddressIsIPAddress, IPAddressGetPort"]}
{"id": "C136", "title": "Setting and unsetting environment variables touches that variable only", "statement": "setenv_wrapper and putenv_wrapper, on platforms with and without setenv, give the variable exactly the value asked for (an '=' in the value included), leave it alone if it is set and not to be overwritten, and leave all other variables as they were; names that cannot be names are refused with nothing changed, as are texts of 1024 bytes or more where setenv is missing. The replacement unsetenv removes the variable, keeps the other entries in order and the array terminated, and reads nothing outside of it.", "quantifier": "every environment, every name and value", "why_tests_cant": "a prefix of another variable's name, a value with '=' or the last entry are cases a test suite samples", "anchors": ["libcompat/unsetenv.c:unsetenv", "libutils/misc_lib.c:setenv_wrapper, putenv_wrapper"]}
{"id": "C137", "title": "closefrom closes exactly the descriptors from its argument on", "statement": "The replacement closefrom, reading /proc/PID/fd in whatever order the entries come and while they disappear, closes every descriptor not below its argument and no other, including the one it opened itself; without /proc the same below the limit of sysconf. Exceptions, with witnesses: descriptors above the limit stay open; the HP-UX variant closes everything.", "quantifier": "every set of open descriptors, every order of the listing", "why_tests_cant": "depends on the order and on concurrent removal of directory entries", "anchors": ["libcompat/closefrom.c:closefrom"]}
{"id": "C138", "title": "mkdtemp makes one new directory or none", "statement": "The replacement mkdtemp, whatever other processes do to the file system meanwhile and whichever mkdir fails: on success exactly one directory was made, its name did not exist at that moment, is the template with its six trailing X replaced by digits, and is what the template holds; on failure none was made; at most a million names are tried, in order. Other templates are refused and nothing is tried. Exceptions, with witnesses: descriptor 0 is closed on every success; the template XXXXXX alone is refused.", "quantifier": "every template, file system, interference and failure pattern", "why_tests_cant": "races with other processes", "anchors": ["libcompat/mkdtemp.c:mkdtemp"]}
{"id": "C139", "title": "getaddrinfo leaks nothing and lists every address", "statement": "For the replacement getaddrinfo, any answers of the name service and any pattern of failing allocations: the call returns an error and memory is as before, or a list of all the addresses asked for, in order, with the port, socket type and protocol asked for, in newly allocated memory which freeaddrinfo returns to the last block; EAI_MEMORY only if an allocation failed; a known host is found when memory suffices, the first entry carrying its canonical name. getnameinfo stores a text completely or reports an error. Exceptions, with witnesses: empty list as success, services by name, canonical name with AI_NUMERICSERV, the port handed to getservbyport in the wrong byte order.", "quantifier": "every answer of the name service, every failure pattern of malloc, every argument", "why_tests_cant": "allocation failures at each point cannot be provoked by ordinary tests", "anchors": ["libcompat/getaddrinfo.c:getaddrinfo, freeaddrinfo, getnameinfo, alloc_entry, getaddr_info_name, getaddr_info_single_addr"]}
{"id": "C140", "title": "Writers give the same text to strings and files, and own what they should", "statement": "Whatever is written through a Writer, the file gets the same bytes as a string writer shows, call by call with the same results, as long as the file has room and no NUL is written; short files hold a prefix and the calls say so; WriterClose, StringWriterClose and FileWriterDetach leave exactly the blocks and streams they promise.", "quantifier": "every series of writes, every place at which the file stops taking bytes", "why_tests_cant": "series and failure points are unbounded", "anchors": ["libutils/writer.c: FileWriter, StringWriter, WriterWrite*, WriterClose, StringWriterClose, FileWriterDetach"]}
{"id": "C141", "title": "The help text lists every option and command", "statement": "WriterWriteHelp writes exactly the usage line, every command and every option with its hint, in order, reading nothing past the end of the arrays, to either kind of writer.", "quantifier": "every list of options, hints and commands", "why_tests_cant": "lists are unbounded", "anchors": ["libutils/writer.c: WriterWriteHelp, WriterWriteOptions, WriterWriteCommands"]}
{"id": "C142", "title": "The known directories are those expected, after any history", "statement": "GetWorkDir and its companions return the compiled directory for root, the one below ~/.cfagent for others, and the one below CFENGINE_TEST_OVERRIDE_WORKDIR when set, after any history of calls; one function's result is not overwritten by another's.", "quantifier": "every history of calls with the variable set, changed or unset; every home directory and configuration that fits", "why_tests_cant": "static buffers make every call depend on the history", "anchors": ["libutils/known_dirs.c"]}
{"id": "C143", "title": "Averages stay within bounds", "statement": "With weights between 0 and 1 the expectation is the weighted mean of all samples and stays between their bounds, the variance is never negative and at most the squared range; round gives the nearest integer, halves away from zero.", "quantifier": "every history of samples and weights; every number (exact arithmetic)", "why_tests_cant": "histories are unbounded", "anchors": ["libutils/statistics.c", "libcompat/round.c"]}
{"id": "C144", "title": "Conversion between char and 16-bit strings", "statement": "As many characters as fit are converted, followed by a terminator, with nothing else written; the result tells whether all could be represented; ASCII text comes back unchanged.", "quantifier": "every string, destination and size above 0", "why_tests_cant": "strings are unbounded", "anchors": ["libutils/unicode.c"]}
{"id": "C145", "title": "Base64 text decodes to the data", "statement": "StringEncodeBase64 gives a terminated text that decodes to exactly the bytes given, in lines of at most 64 characters with no newline at the end.", "quantifier": "every byte sequence and length", "why_tests_cant": "sequences are unbounded", "anchors": ["libutils/encode.c: StringEncodeBase64"]}
{"id": "C146", "title": "Typed members of JSON objects and arrays", "statement": "For every history of typed appends (string, int, int64, bool, real, null, array, object) and removals on a new object: the history is refused exactly when a container is appended through the function for the other kind; otherwise every typed getter gives what was last stored under the key (its text, truth value or children), NULL or false when there is nothing, and is refused exactly when the member is of another kind. Arrays hold the appended values in order, with the typed getters refused for other kinds and out of range. Deviations shown: a null member read as string is the text null; JsonPrimitiveTypeToString has no name for null.", "quantifier": "every history of appends and removals, every key and value", "why_tests_cant": "histories are unbounded", "anchors": ["libutils/json.c: JsonObjectAppendString, JsonObjectAppendInteger, JsonObjectAppendInteger64, JsonObjectAppendBool, JsonObjectAppendReal, JsonObjectAppendNull, JsonObjectAppendArray, JsonObjectAppendObject, JsonObjectGetAsString, JsonObjectGetAsBool, JsonObjectGetAsObject, JsonObjectGetAsArray, JsonArrayAppend*, JsonArrayGetAsString, JsonArrayGetAsObject"]}
{"id": "C147", "title": "Threaded containers release what they take", "statement": "For every history of creating, copying and destroying threaded queues, deques and stacks, whichever initialisations of mutexes and conditions fail: nothing is freed twice or used after being freed, no mutex or condition is initialised or destroyed twice; what is allocated and initialised is what the containers still held consist of, plus exactly what failed calls lose (the array of a failed copy, the mutex of a failed new stack, a mutex attribute for each copied queue). When no call fails and all are destroyed, everything was returned.", "quantifier": "every history of calls, every pattern of failing initialisations", "why_tests_cant": "initialisations do not fail in tests; histories are unbounded", "anchors": ["libutils/threaded_queue.c: ThreadedQueueNew, ThreadedQueueCopy, ThreadedQueueDestroy, ThreadedQueueSoftDestroy", "libutils/threaded_deque.c: ThreadedDequeNew, ThreadedDequeCopy, ThreadedDequeDestroy, ThreadedDequeSoftDestroy", "libutils/threaded_stack.c: ThreadedStackNew, ThreadedStackCopy, ThreadedStackDestroy, ThreadedStackSoftDestroy"]}
{"id": "C148", "title": "Search and replace returns its memory", "statement": "Whatever PCRE answers and whichever allocations fail: pcre_wrap_compile returns NULL with memory as before, or a job whose blocks pcre_wrap_free_job frees, each once; BufferSearchAndReplace sets the buffer exactly when it returns NULL, and leaves memory as before unless matching fails, when exactly the blocks of the compiled job remain. Deviations shown: that leak; every pattern that does not compile is reported with the message that everything is fine.", "quantifier": "every pattern of failing allocations, every answer of the library, any number of matches", "why_tests_cant": "allocation failures at each point cannot be provoked by ordinary tests", "anchors": ["libutils/pcre_wrap.c: pcre_wrap_compile, pcre_wrap_free_job, pcre_wrap_execute, pcre_wrap_strerror", "libutils/buffer.c: BufferSearchAndReplace"]}
{"id": "C149", "title": "Setting fields of keys transfers the numbers exactly", "statement": "The replacements for OpenSSL's set0 functions (RSA, DSA, DH keys, DSA and ECDSA signatures): given numbers that are the caller's, a call succeeds exactly when every field that must have a value has or gets one, and otherwise changes nothing; on success exactly the fields given hold the new numbers, all other fields of all objects are as before, and exactly the numbers replaced are freed, each once; the get0 functions hand out exactly what was set. For every history of duplicating, renaming and freeing RSA methods, whichever allocations fail, nothing is freed twice and the memory in use is that of the methods held. Deviation shown: handing back the number a field already holds frees it and keeps it.", "quantifier": "every call with every combination of NULL and numbers, every state of the objects; every history and pattern of failing allocations", "why_tests_cant": "ownership errors do not show in results; combinations and histories are unbounded", "anchors": ["libutils/libcrypto-compat.c: RSA_set0_key, RSA_set0_factors, RSA_set0_crt_params, DSA_set0_pqg, DSA_set0_key, DSA_SIG_set0, ECDSA_SIG_set0, DH_set0_pqg, DH_set0_key, RSA_get0_key, RSA_meth_dup, RSA_meth_set1_name, RSA_meth_free"]}
{"id": "C150", "title": "The manual page has every section, option and command", "statement": "ManPageWrite, for texts that are single lines where a line is meant, contain no line that looks like a heading, a program name of graphic characters and options with a short form: to strings and files it writes a text which, read line by line, consists of comments, the title line with the program's name in upper case (254 characters of it) and the date, and exactly the sections NAME, SYNOPSIS, DESCRIPTION, COMMANDS if there are commands, OPTIONS with each option, its argument and hint in order, and the fixed ones; arrays are not read past their ends. The date is that of SOURCE_DATE_EPOCH when it begins with a positive number, else the one given. Deviations shown: options without short form put a raw byte into the page, a blank cuts the name, texts are not escaped.", "quantifier": "every page, options and commands of any number, every writer and time", "why_tests_cant": "lists and texts are unbounded", "anchors": ["libutils/man.c: ManPageWrite, WriteHeader, WriteSynopsis, WriteCommands, WriteOptions"]}
{"id": "C151", "title": "Receiving a socket on Windows returns it or closes it", "statement": "PassOpenFile_Get on Windows, asked for the text: whatever the peer sends, however much of it each call moves and whichever call of the system fails, nothing undefined happens; the socket opened is returned or closed, once; buffers are freed; a socket is returned only if it was opened from exactly the first bytes that arrived and no text was announced. PassOpenFile_Put duplicates the socket for the process whose number was read whole and for no other, sends the blob, the length and the text in this order, and reports success only if blob and length went out completely and something came back. A socket passed without text arrives when all calls go well. Deviations shown: a text never arrives, the call fails and the socket is closed; with NULL for the text a text that comes is undefined; a process number read in two parts addresses another process; one too large is undefined.", "quantifier": "every input of the peer, every pattern of failing and partial calls, every process number, blob and text", "why_tests_cant": "partial transfers and failures are schedules of the system; the code is compiled on Windows only", "anchors": ["libutils/passopenfile.c: wait_for, PassOpenFile_Put, PassOpenFile_Get (MinGW)"]}
{"id": "C152", "title": "Lists of files are exactly the matching ones", "statement": "GlobFileList, whatever glob(3) answers for each pattern: the set has exactly the files found for the pattern or, when it contains **, for the six patterns with every ** replaced by one to six levels of *; each once, and everything allocated on the way is freed. In any tree, dir/** gives exactly the files one to six levels below the directory with no hidden component. ListDir gives, in order, the names that end with the extension up to ASCII case, behind the directory and one slash; NULL exactly when the directory cannot be opened. Deviations shown: ** reaches neither seven levels nor no level, two ** only match equal depths, and without extension . and .. are listed.", "quantifier": "every pattern, tree, directory and extension, every answer of glob", "why_tests_cant": "trees and patterns are unbounded", "anchors": ["libutils/file_lib.c: GlobFileList, ListDir"]}
{"id": "C153", "title": "File names are mapped character by character", "statement": "IsAbsoluteFileName is true exactly for names that, leading quotation marks left out, begin with a slash (on Windows a separator, or a drive, colon and separator). MapName and MapNameCopy on Windows turn every slash into a backslash and change nothing else, neither other characters nor memory behind the string; on Cygwin the drive becomes /cygdrive/x, the names between separators stay the same and separators become single slashes. MapNameForward turns every backslash into a slash. File_CopyToDir copies to the directory's name followed by the part of the source behind its last slash, if there is one and the result has fewer than 4096 bytes, and otherwise copies nothing and fails. Deviation shown: MapNameForward always returns NULL.", "quantifier": "every name, directory and memory behind the string", "why_tests_cant": "names are unbounded; the mapping variants are compiled on other systems", "anchors": ["libutils/file_lib.c: IsAbsoluteFileName, MapName, MapNameCopy, MapNameForward, File_CopyToDir"]}
{"id": "C154", "title": "Formatted output is complete", "statement": "fprintf, printf and their va_list forms of libcompat hand the stream the whole text that snprintf makes of the format, whatever its length, in one piece, and return the number of bytes the stream took; what is refused is not written at all and gives -1. xasprintf, xvasprintf and StringFormat return the whole text in a block of just its size or end the process with 255: they never return NULL or an error. CsvWriterFieldF writes what CsvWriterField writes for the text. xsnprintf returns with the whole text in the buffer; otherwise a debugging build aborts, a release build cuts; a refused text leaves the empty string. ProgrammingError and UnexpectedError print one line of place, kind and text. Deviations shown: a stream that takes nothing gives 0 and not a negative value; xsnprintf of a refused text writes one byte into a buffer of size 0.", "quantifier": "every format, argument list, buffer, stream and memory state", "why_tests_cant": "texts are unbounded, and the switch from the stack buffer to allocated memory depends on the length", "anchors": ["libcompat/snprintf.c: rpl_vfprintf, rpl_fprintf, rpl_printf", "libutils/alloc.c: xasprintf, xvasprintf", "libutils/string_lib.c: StringFormat, StringVFormat", "libutils/misc_lib.c: xsnprintf, __ProgrammingError, __UnexpectedError", "libutils/csv_writer.c: CsvWriterFieldF"]}
{"id": "C155", "title": "Waiting in the threaded queue ends", "statement": "A thread that sleeps in Pop, PopN or WaitEmpty was given a time limit other than 0; unless it was told to wait for ever, the call can end at any moment at which the lock is free, having taken and changed nothing. No call that was told to wait for ever, or not to wait, ends because of time. From every reachable state, whoever holds the lock, every thread that is in a call has a way to the end of the call or to sleep in it: the lock is always given back and no call gets stuck.", "quantifier": "every number of threads, every schedule of calls, wake-ups and time-outs", "why_tests_cant": "schedules are unbounded, and a deadlock shows in few of them", "anchors": ["libutils/threaded_queue.c: ThreadedQueuePop, ThreadedQueuePopN, ThreadedQueueWaitEmpty", "libutils/mutex.c: __ThreadWait"]}
{"id": "C156", "title": "The tree checks itself correctly; without a comparison it orders nearby addresses", "statement": "The assertions that RBTreeCopy evaluates pass exactly if no red node has a red child and all paths have the same number of black nodes; they never fail, neither on a tree after any history of calls nor on any copy. A tree made without comparison function orders its keys by address and tells different pointers apart as long as all keys lie within 2^31 bytes. Deviation shown: keys 4 GiB apart are taken for the same, so that one put replaces the other, and three keys can be in a circle.", "quantifier": "every history, every tree, every set of addresses", "why_tests_cant": "needs histories of any length, and addresses far apart", "anchors": ["libutils/rb-tree.c: VerifyTree_, VerifyNode_, PointerCompare_"]}
{"id": "C157", "title": "String hashes keep strings apart that differ in one byte", "statement": "StringHash is a function of the bytes before the terminator and the seed. Under every seed, two strings that differ in exactly one byte, wherever, have different hashes; for every string the hash is a permutation of the seeds. With StringEqual it meets the requirements of maps and sets: equality is an equivalence and equal keys have equal hashes.", "quantifier": "every string, every seed, every memory behind the string", "why_tests_cant": "2^32 seeds and unbounded strings", "anchors": ["libutils/string_lib.c: StringHash, StringHash_untyped, StringEqual_untyped"]}
{"id": "C158", "title": "Directory entries have room for their names", "statement": "AllocateDirentForFilename gives a block at least as large as struct dirent in which d_name holds the given name, for every name of fewer than 2^31-1 bytes and every layout of the structure. The buffer DirOpen allocates for readdir_r has room for every name the file system allows. (Where there is no limit and no NAME_MAX, -1 is used as a length and the buffer is too small; small limits are used although the comment says they are not trusted.)", "quantifier": "every name, every layout of struct dirent, every answer of fpathconf", "why_tests_cant": "needs systems with other layouts and limits; sizes are 64-bit", "anchors": ["libutils/unix_dir.c: AllocateDirentForFilename, GetDirentBufferSize, GetNameMax, DirOpen, DirRead"]}
{"id": "C159", "title": "Reading a stream into a buffer loses nothing; descriptor flags and masks are put back", "statement": "ReadFileStreamToBuffer ends on every stream, writes only into the first max_bytes bytes, returns a negative number exactly if the stream is then in error, and otherwise the number of bytes taken from the stream, which the buffer now begins with, in order; fewer than max_bytes only at the end of the file. SetCloseOnExec returns true exactly for open descriptors and changes only that flag of that descriptor. RestoreUmask undoes SetUmask.", "quantifier": "every stream with ends of file and errors at any place, every buffer and limit, every flag word, every mask", "why_tests_cant": "errors in the middle of a stream cannot be produced at will; every position of the end relative to the limit", "anchors": ["libutils/file_lib.c: ReadFileStreamToBuffer, SetCloseOnExec, SetUmask, RestoreUmask"]}
{"id": "C160", "title": "File locks on Windows exclude each other", "statement": "In every history of ExclusiveFileLock, SharedFileLock, the \u2026Path variants, unlocking, and ends of processes, while a FileLock holds an exclusive lock no other FileLock holds any lock on the file. A call gets the lock exactly if nothing excludes it; otherwise it returns -1 or waits, as asked. Closing and the end of a process release everything. (A FileLock that has a lock and waits for an exclusive one waits for itself for ever, unlike with POSIX locks; ExclusiveFileLockCheck is always false.)", "quantifier": "every history of calls by any number of processes", "why_tests_cant": "schedules of several processes; needs Windows", "anchors": ["libutils/file_lib.c: LockFD, UnlockFD, ExclusiveFileLock, SharedFileLock, ExclusiveFileLockCheck, ExclusiveFileUnlock, SharedFileUnlock, ExclusiveFileLockPath, SharedFileLockPath (__MINGW32__)"]}
{"id": "C161", "title": "The red-black tree is a finite map as a pointer structure", "statement": "With nodes as blocks of memory linked by parent, left and right pointers, sentinels included: for every allocator that returns free blocks and every history of RBTreePut, RBTreeRemove and RBTreeClear, no call reads or writes a node that is not allocated and every loop ends; RBTreeGet answers the last value put under an equal key; every call returns whether an equal key was there and hands exactly the replaced, removed or cleared pairs to the destructors.", "quantifier": "every memory, every allocator, every total preorder, every history", "why_tests_cant": "rotations and the fix-ups of removal have many pointer cases reached only by particular histories; a wrong parent pointer may show only much later", "anchors": ["libutils/rb-tree.c: NodeNew_, Reset_, RotateLeft_, RotateRight_, PutFix_, RBTreePut, Get_, RBTreeGet, Next_, RemoveFix_, RBTreeRemove, RBTreeClear"]}
{"id": "C162", "title": "A red-black tree accounts for all its memory", "statement": "After every history the blocks in use are exactly those in use before, two sentinels, and one node for each stored pair; nothing else in memory is changed. RBTreeDestroy frees all of them and nothing else, and hands each stored pair to the destructors once. (RBTreeClear also hands the null key and value of a sentinel to the destructors, once for each clear.)", "quantifier": "every memory, every allocator, every total preorder, every history", "why_tests_cant": "leaks, double frees and stray writes after arbitrary histories", "anchors": ["libutils/rb-tree.c: NodeNew_, NodeDestroy_, TreeDestroy_, RBTreeNew, RBTreeDestroy, ClearRecursive_, RBTreeClear, RBTreePut, RBTreeRemove"]}
{"id": "C163", "title": "Iterators over a tree survive changes elsewhere", "statement": "Iterating delivers the stored pairs in increasing key order and reads only allocated nodes. An iterator standing on a key survives every sequence of puts and of removes of other keys: it then delivers the pair now stored under that key and goes on like a new iterator that has arrived there. (After its own key is removed it reads a freed node; made on an empty tree and used after a put, it delivers a null key and value and ends.)", "quantifier": "every history before, every history of permitted changes after, every position of the iterator", "why_tests_cant": "an iterator position and a later rebalancing interact through pointers; unbounded many combinations", "anchors": ["libutils/rb-tree.c: RBTreeIteratorNew, Peek_, RBTreeIteratorNext, Next_, RBTreeRemove, RBTreePut"]}
{"id": "C164", "title": "The hash map is a finite map as a pointer structure and accounts for all its memory", "statement": "With the bucket array and the items as blocks of memory linked by next pointers: for every allocator that returns free blocks, all callbacks that respect equality, every initial size and every history of HashMapInsert, HashMapRemove and HashMapClear with all the resizing they cause, no call touches a block that is not allocated, leaves the bucket array or loops for ever; HashMapGet shows the last pair inserted under an equal key; each call returns whether an equal key was there and hands exactly the dropped pairs to the destructors. The blocks in use are exactly those before, one bucket array of the right length and one item for each stored pair; HashMapDestroy and HashMapSoftDestroy give back the very memory there was before.", "quantifier": "every memory, every allocator, every lawful pair of hash and equality, every initial size, every history", "why_tests_cant": "rehashing moves items between chains through pointers; wrong links show only after particular histories and hashes", "anchors": ["libutils/hash_map.c: HashMapNew, HashMapInsert, HashMapRemove, HashMapGet, HashMapClear, HashMapDestroy, HashMapSoftDestroy, HashMapResize, FreeBucketListItem, FreeBucketListItemSoft, HashMapGetBucket"]}
{"id": "C165", "title": "Pointers from HashMapGet survive rehashing", "statement": "A pointer returned by HashMapGet stays valid through every later sequence of inserts (of the same key, too) and removes of other keys, with all growing and shrinking of the map: HashMapGet returns the same pointer for that key, and it shows the pair now stored.", "quantifier": "every history before, every permitted history after, every key", "why_tests_cant": "rehashing happens only at particular loads; unbounded histories", "anchors": ["libutils/hash_map.c: HashMapGet, HashMapInsert, HashMapRemove, HashMapResize"]}
{"id": "C166", "title": "Iterating over a hash map, with removal of the item just delivered", "statement": "After every history an iteration delivers each stored pair exactly once, at the address HashMapGet gives, and reads only allocated blocks. The caller may remove any of the keys just delivered: as long as the map is not shrunk, the iteration delivers the same items in the same order, and afterwards exactly the others are stored. A map that never held more pairs than its initial size allows is never resized. An iterator that has ended stays at the end. (Removing the item to be delivered next makes the iterator read freed memory; when an insert makes the map grow, pairs can be delivered twice or not at all; when removing shrinks it, the iteration can end early.)", "quantifier": "every history, every choice of removed keys, every allocator", "why_tests_cant": "interaction of the stored next pointer with removal and resizing; unbounded many combinations", "anchors": ["libutils/hash_map.c: HashMapIteratorInit, HashMapIteratorNext, HashMapRemove, HashMapResize"]}
{"id": "C167", "title": "The hash map keeps its load and reports its statistics", "statement": "After every history the number of buckets is a power of two, not below the initial one, and at most three quarters of it are used unless the map has its largest size. HashMapPrintStats prints the number of buckets, how many of them some stored key hashes to, the number of pairs, and the ten largest numbers of pairs that share a bucket, largest first, each with a bucket of that length, no bucket twice. (When fewer than ten buckets are used the other lines say that bucket 0 is empty; HashMapClear keeps the bucket array as large as it was.)", "quantifier": "every history, every hash function", "why_tests_cant": "distribution of hashes and load over unbounded histories", "anchors": ["libutils/hash_map.c: HashMapNew, HashMapInsert, HashMapRemove, HashMapResize, HashMapPrintStats, HashMapClear"]}
{"id": "C168", "title": "A sequence of strings written to a file is read back", "statement": "If the file opens, no output call fails and fclose succeeds, SeqStringWriteFile returns true, whatever the file held and however the C library buffers, and SeqStringReadFile gives the same sequence, for every schedule of short reads and interruptions. If fclose reports earlier failures, a result of true means that the file is complete. A process that ends in the middle leaves a prefix of the text. (The result says only whether the file was opened and closed: a failed output call in between is not noticed, and the file can lack strings without any error; SeqStringReadFile never closes its descriptor, so after enough calls every call returns NULL.)", "quantifier": "every sequence, every way the C library may buffer, fail and recover, every schedule of reads, every moment of a crash", "why_tests_cant": "disks that are full for a moment, crashes and short reads at every place", "anchors": ["libutils/string_sequence.c: WriteLenPrefixedString, SeqStringWrite, SeqStringWriteFileStream, SeqStringWriteFile, SeqStringReadFile, ReadLenPrefixedString", "libutils/writer.c: FileWriterWriteF"]}
{"id": "C169", "title": "Timestamps of the log say the time and sort by it", "statement": "LoggingFormatTimestamp writes only into the bytes given and leaves a terminated string there: the timestamp if it fits, otherwise a prefix of <unknown> with the result false. For ordinary times it has 24 characters with year, month, day, hour, minute, second and zone as decimal numbers at fixed places, and timestamps of the same zone compare as texts exactly as the times do. The 64 bytes the log uses are always enough.", "quantifier": "every broken-down time, every size, every content of memory", "why_tests_cant": "all years, zones and buffer sizes", "anchors": ["libutils/logging.c: LoggingFormatTimestamp, LogToConsole"]}
{"id": "C170", "title": "Messages for errors and signals give the right number or reason", "statement": "GetErrorStrFromCode on Windows gives every system message without its last two characters, or Unknown error. The replacements of strerror and strsignal give the number in full up to five and seven characters. When a conversion function ends the program, the reason in the message (No digits, Overflow, Not terminated) is the true one, for every text. (A message of one character is written before the array; strerror cuts numbers of seven digits, so that different errors read the same.)", "quantifier": "every message, every number, every text", "why_tests_cant": "the whole range of codes; needs Windows and old systems", "anchors": ["libutils/logging.c: GetErrorStrFromCode (__MINGW32__)", "libutils/string_lib.c: LogStringToLongError, StringToLongExitOnError, StringToUlongExitOnError, StringToInt64ExitOnError", "libcompat/strerror.c: strerror", "libcompat/strsignal.c: strsignal"]}
{"id": "C171", "title": "PRINTSIZE is always enough", "statement": "A buffer of PRINTSIZE(x) bytes takes the decimal text of every value of the type of x with its NUL, under %d, %+d and %u, for integer types of every size.", "quantifier": "every size of integer type, every value", "why_tests_cant": "integer types that do not exist yet (the header promises them), every value", "anchors": ["libutils/printsize.h: PRINTSIZE"]}
{"id": "C172", "title": "Little-endian words survive both byte orders", "statement": "htole32(v) lies in memory as the little-endian text of v on machines of either byte order, le32toh gets v back from that text, and ByteSwap32 applied twice is the identity.", "quantifier": "every 32-bit number, both byte orders", "why_tests_cant": "2^32 values; needs a big-endian machine", "anchors": ["libutils/platform.h: ByteSwap32, le32toh, htole32"]}
{"id": "C173", "title": "The NULL-tolerant string helpers and the containment tests", "statement": "SafeStringDuplicate, SafeStringNDuplicate, NULLStringToEmpty, NULL_OR_EMPTY, SAFENULL and their relatives treat NULL as documented and pass every other string through unchanged; STARTSWITH, StringContains and StringContainsChar decide prefix, substring and membership; CharIsPrintableAscii is true for the same 95 bytes whether char is signed or not. (SafeStringLength is an int: a string of 2^32 bytes has length 0 and EMPTY_STRING_TO_NULL turns it into NULL; StringContainsChar finds the NUL byte in every string.)", "quantifier": "every string or NULL, every byte, both kinds of char", "why_tests_cant": "unbounded strings, lengths beyond 2^31", "anchors": ["libutils/string_lib.c: SafeStringDuplicate, SafeStringNDuplicate, SafeStringLength, NULLStringToEmpty", "libutils/string_lib.h: NULL_OR_EMPTY, NOT_NULL_AND_EMPTY, STARTSWITH, SAFENULL, EMPTY_STRING_TO_NULL, NULL_TO_EMPTY_STRING, CharIsPrintableAscii, StringContains, StringContainsChar"]}
{"id": "C174", "title": "ABS and the size macros compute what they say", "statement": "ABS(n) is the absolute value and KIBIBYTE(n), MEBIBYTE(n), GIBIBYTE(n), TEBIBYTE(n) are n times the power of 1024, for a single operand whose result fits. (The macros do not put their argument in parentheses: ABS(1 - 3) is -4 and KIBIBYTE(1 + 1) is 1025; ABS(INT_MIN) overflows; with a 32-bit long MEBIBYTE(4096) is 0.)", "quantifier": "every value, every width of long, every form of argument", "why_tests_cant": "all values", "anchors": ["libutils/misc_lib.h: ABS", "libutils/definitions.h: KIBIBYTE, MEBIBYTE, GIBIBYTE, TEBIBYTE"]}
{"id": "C175", "title": "nanosleep on Windows sleeps at least the time asked for", "statement": "nanosleep sleeps at least the requested time and less than one millisecond more, and sets the remaining time to zero, for requests up to 2^32-2 milliseconds. (Longer requests wrap: one of 4294967.295 seconds never returns, one of 4294967.296 seconds returns at once.)", "quantifier": "every request", "why_tests_cant": "cannot wait for 49 days; needs Windows", "anchors": ["libcompat/nanosleep.c: nanosleep"]}
{"id": "C176", "title": "unsetenv on Windows and dirfd on old systems", "statement": "unsetenv removes exactly the entries of the variable named, keeps all others in order, and refuses bad names and failed allocations without change, never overrunning its buffer; dirfd gives the descriptor of an open stream. (For a stream without descriptor dirfd returns ENOTSUP, a positive number, where callers expect -1.)", "quantifier": "every name, every environment, both outcomes of malloc; every descriptor", "why_tests_cant": "unbounded names and environments; needs Windows, Solaris, HP-UX or AIX", "anchors": ["libcompat/unsetenv.c: unsetenv (__MINGW32__)", "libcompat/dirfd.c: dirfd"]}
{"id": "C177", "title": "drand48 lies in [0,1)", "statement": "The replacement of drand48 gives a number of at least 0 and below 1 for every value of rand() and every rounding mode, as long as RAND_MAX is below 2^53. (With RAND_MAX = 2^63-1 and rounding to nearest it can give exactly 1.)", "quantifier": "every RAND_MAX, every value of rand(), every rounding mode", "why_tests_cant": "all rounding modes and platforms", "anchors": ["libcompat/drand48.c: drand48"]}
{"id": "C178", "title": "getloadavg stores the averages the kernel publishes", "statement": "On Linux getloadavg stores the first min(nelem,3) numbers of /proc/loadavg and returns how many, when the three numbers fit the buffer with their blanks; on NetBSD it stores nelem quotients for nelem up to 3. (The Linux buffer is not terminated: a short file or long numbers make sscanf read bytes never written; the NetBSD loop reads past its three values when more are asked for.)", "quantifier": "every content of the file, every nelem", "why_tests_cant": "arbitrary kernels and containers decide on the content", "anchors": ["libcompat/getloadavg.c: getloadavg"]}
{"id": "C179", "title": "Clock, broken-down time, user and seed replacements", "statement": "xclock_gettime always stores a time, in whole seconds when the clock fails; gmtime_r and localtime_r fill the caller's structure or leave it alone and return NULL; seteuid changes only the effective user and reports success exactly when it did; srand48 seeds are equal exactly if their low 32 bits are.", "quantifier": "every outcome of the system functions, every time, user and seed", "why_tests_cant": "outcomes of system calls; needs Windows and old systems", "anchors": ["libutils/misc_lib.c: xclock_gettime", "libcompat/clock_gettime.c: clock_gettime", "libcompat/gmtime_r.c: gmtime_r", "libcompat/localtime_r.c: localtime_r", "libcompat/seteuid.c: seteuid", "libcompat/srand48.c: srand48"]}
{"id": "C180", "title": "Logging by several threads at once keeps each thread's messages whole and in order", "statement": "Under every schedule of the threads, what a thread has written to the console and the system log is the beginning of what it would write alone, all of it once it has finished; levels and colours set by other threads do not change it, and without colours, time stamps and prefix the console consists of whole lines, each of one thread. (With time stamps, a prefix or colours a line is written by several calls and the lines of two threads get mixed; a change of the global level while a thread makes its settings leaves it with different levels for console and system log.)", "quantifier": "every program of every thread, every schedule", "why_tests_cant": "schedules cannot be enumerated by tests", "anchors": ["libutils/logging.c: GetCurrentThreadContext, VLog, LogToConsole, LogToSystemLog, LogSetGlobalLevel, LoggingPrivSetLevels, LoggingSetColor, LoggingFreeCurrentThreadContext"]}
{"id": "C181", "title": "Cleanup functions with several threads", "statement": "When several threads call RegisterCleanupFunction, CallCleanupFunctions and DoCleanupAndExit at once: no list node is used before it is filled in or after it is freed, every registration that returned has taken effect and is run at most once, each function run is the last registered of those waiting, a cleanup returns only when none is waiting, memory holds one block per function waiting, no schedule deadlocks and every schedule ends. Exception (finding): a function registered while another thread is between the cleanup and exit is accepted and never run. Cleanup functions do not call this module (C51 shows what happens then).", "quantifier": "every number of threads, every program of calls of each, every schedule of single steps and every choice of addresses by malloc", "why_tests_cant": "schedules and programs are unbounded", "anchors": ["libutils/cleanup.c: RegisterCleanupFunction, CallCleanupFunctions, DoCleanupAndExit"]}
{"id": "C182", "title": "Several sequences in one memory", "statement": "A program that holds any number of sequences: every call stays within memory it owns and returns; each sequence holds what the plain list would, and no call changes any sequence but the one it names (SeqSplit and the soft copies make new ones); memory in use is exactly two blocks per sequence held. If each item is put in once and the functions that copy item pointers (SeqAppendSeq, SeqGetRange, SeqSoftSort) are not called, no item is given to the destructor twice and none destroyed is still in a sequence; if moreover every sequence has a destructor and none of the soft functions is called, the items destroyed and those held are exactly those put in. Exceptions (findings): the soft copy gets the destructor of the original, so destroying both destroys items twice; that of an empty sequence has no destructor; appending a sequence to itself never ends.", "quantifier": "every program of calls on any number of sequences, every capacity, every item, every total preorder for comparing", "why_tests_cant": "programs, sizes and the numbers of sequences are unbounded", "anchors": ["libutils/sequence.c: SeqNew, SeqAppend, ExpandIfNeccessary, SeqAppendOnce, SeqAppendSeq, SeqGetRange, SeqSplit, SeqSoftSort, SeqDestroy, SeqSoftDestroy"]}
{"id": "C183", "title": "Shuffling is fair and reproducible", "statement": "SeqShuffle rearranges the elements by an order that depends only on the generator, the seed and the number of elements; every order is the result of some drawn numbers, and two draws that differ in a number that counts give different orders, so the n! choices and the orders correspond one to one; the generator's state afterwards does not depend on the seed or the sequence. Exception (finding): the state before the call is not put back, as the comment says it is.", "quantifier": "every random number generator, state, seed, sequence and order", "why_tests_cant": "generators, seeds and orders are unbounded", "anchors": ["libutils/sequence.c: SeqShuffle, Swap"]}
{"id": "C184", "title": "Known directories with several threads", "statement": "When several threads call a directory function of known_dirs.c at once and read the text at the pointer they get, each reads a non-empty beginning of the right path and nothing else; once any caller has read the whole path, everything read later is the whole path; if one thread calls before the others start, every thread always reads the whole path. Exception (finding): two first calls at the same time can give one thread a cut path, because the buffer counts as filled as soon as its first byte is written.", "quantifier": "every number of threads, every schedule of single byte reads and writes, every path", "why_tests_cant": "schedules and paths are unbounded", "anchors": ["libutils/known_dirs.c: GetDefaultDir_helper, GET_DIRECTORY_DEFINE_FUNC_BODY, GetBinDir"]}
{"id": "C185", "title": "Running out of memory", "statement": "xmalloc, xcalloc, xrealloc, xstrdup, xstrndup and xmemdup return NULL only when no bytes were asked for; otherwise they return a block at an unused address, of the size asked for (for xcalloc the true product, never a wrapped one) and with the contents due, and leave all other blocks alone. When memory is refused they do not return: the message naming the function goes to stderr, the cleanup functions registered so far are run last registered first, and the process exits with 255. Exceptions (findings): RegisterCleanupFunction asks for memory while holding the mutex the cleanup needs, so when it is refused the process hangs after the message and runs no cleanup; the same happens when a cleanup function is refused memory. For programs whose cleanup functions leave these modules alone that is the only way to hang.", "quantifier": "every program of calls (allocations, frees, registrations, cleanups, exits), every pattern of refusals by the C library, every size and content", "why_tests_cant": "programs and patterns of refusals are unbounded; a test cannot make each single allocation of a process fail", "anchors": ["libutils/alloc.c: CheckResult", "libutils/alloc.c: xmalloc", "libutils/alloc.c: xcalloc", "libutils/alloc.c: xrealloc", "libutils/alloc.c: xstrdup", "libutils/alloc.c: xstrndup", "libutils/alloc.c: xmemdup", "libutils/cleanup.c: RegisterCleanupFunction", "libutils/cleanup.c: DoCleanupAndExit"]}
{"id": "C186", "title": "How every line of CSV is read", "statement": "SeqParseCsvString reads every line in one way, given by a grammar: fields separated by commas, each bare (taken as it is, blanks included; the last one without its final CR LF) or quoted (blanks around the quotes dropped, doubled quotes halved); a line is refused exactly if a quote is not closed or a quote or byte is out of place and is not the last byte. In particular every RFC 4180 record ended by CR LF is read as its fields, whichever fields its writer put in quotes, and reading such lines is memory safe. Exceptions (findings): a misplaced quote or byte at the very end of the line is accepted and empties the last field; an empty last field without CR LF behind a quoted one gets that one's value; with exactly one blank between a closing quote and a comma the value is not terminated (C61). JsonParseCsvFile gives the array of the rows of the lines that are not refused, up to its size limit.", "quantifier": "every line without NUL in which no quoted field has exactly one blank between closing quote and comma", "why_tests_cant": "lines are unbounded, and so is the number of ways to write a record", "anchors": ["libutils/csv_parser.c: LaunchCsvAutomata", "libutils/csv_parser.c: SeqParseCsvString"]}
{"id": "C187", "title": "Several stacks, queues, ring buffers and iterators in one memory", "statement": "A program may have any number of stacks, queues, ring buffers and ring buffer iterators at the same time. As long as it uses only what it has not destroyed, takes from no empty queue and moves no iterator that has already delivered more items than its ring buffer still holds, nothing is undefined; each container behaves as a list of its own, whatever is done to the others; every call returns what it should and gives the right items to destructors, in order; the memory in use is at any time exactly what the living containers need, so that none is left when all are destroyed; and when every container owns its items, no stack is copied or soft-destroyed, every item given is accounted for exactly once: still in a container, given to a destructor, or returned by the call that took it out. Not given by the code: a copied stack destroys its items a second time; an iterator moved after its ring buffer was cleared reads outside the array.", "quantifier": "every sequence of calls on any number of containers of these kinds, any capacities, any items", "why_tests_cant": "interference between containers that share the allocator shows only in particular interleavings of calls; tests use one container at a time", "anchors": ["libutils/stack.c:StackNew,StackPush,StackPop,StackCopy,StackDestroy,StackSoftDestroy", "libutils/queue.c:QueueEnqueue,QueueDequeue,QueueDestroy", "libutils/ring_buffer.c:RingBufferAppend,RingBufferClear,RingBufferDestroy,RingBufferIteratorNext"]}
{"id": "C188", "title": "Several buffers in one memory, and pointers to their bytes", "statement": "A program may have any number of buffers, arrays of its own and pointers obtained from BufferData at the same time, and may append to a buffer the bytes of another through such a pointer. As long as it uses only what it has not destroyed, uses no pointer to the bytes of a buffer that has changed since, gives no buffer its own bytes, and gives lengths that are there, nothing is undefined; each buffer behaves as a byte string of its own, whatever is done to the others; every call returns what it should and reading through a pointer or an array taken with BufferClose gives the right bytes; the memory in use is at any time exactly that of the living buffers and arrays, so that none is left when all are gone. Not given by the code: appending a part of a buffer to itself reads freed memory when the array moves; BufferSet from the buffer's own bytes leaves it empty; a pointer from BufferData is dead after growth; the array of a closed byte buffer has no terminator.", "quantifier": "every sequence of calls on any number of buffers, arrays and pointers, any contents and capacities below 2^32", "why_tests_cant": "interference and dangling pointers show only in particular interleavings of calls and particular capacities; tests use one buffer at a time", "anchors": ["libutils/buffer.c:BufferNewWithCapacity,BufferNewFrom,BufferCopy,BufferDestroy,BufferClose,BufferData,BufferAppend,BufferSet,BufferAppendString,BufferAppendChar,BufferClear,BufferTrimToMaxLength,BufferSetMode,BufferAppendF,BufferPrintf,BufferFilter,BufferRewrite"]}
{"id": "C189", "title": "Writing JSON documents in memory", "statement": "JsonWrite and JsonWriteCompact may be called at any moment of any program that builds, changes, copies, merges and destroys elements, on any element or on one inside it. No call then touches freed memory, the texts are those of the plain values, the elements keep the values that plain values would have, and everything can still be destroyed, leaving nothing behind. Writing always succeeds for a document built through the API. What it does to the document is this and only this: the members of each object get into the order of their names; nothing is allocated or freed, and no name, text, type or set of children changes, whatever is in memory. Not given by the code: although the element is passed as const, its order is changed, so that a loop over members by index which writes the object in between skips members and repeats others.", "quantifier": "every program of API calls and writes at any depth, any heap, any level of indentation, both formats", "why_tests_cant": "a write in the middle of a program moves pointers that later calls follow; tests write a document once, at the end", "anchors": ["libutils/json.c:JsonWrite,JsonWriteCompact,JsonArrayWrite,JsonObjectWrite,JsonSort,JsonElementPropertyCompare", "libutils/sequence.c:SeqSort"]}
{"id": "C190", "title": "Threads that write the same document", "statement": "Once a document built through the API has been written, in either format, it and every part of it is in order: the names in each object strictly ascend. After that any number of threads may write it, or parts of it, at the same time and in any formats and levels of indentation, without a lock: whatever the order of their single accesses to memory, nothing undefined happens, memory is at every moment exactly what it was (they store, if at all, the pointer that is there), and each thread ends after a number of its own steps that the others cannot change, with the text that the plain value has. Documents that have not been written before may be written at the same time too, as long as of each two elements neither is the other or inside it: then nothing undefined happens under any schedule, the texts are those of the plain values, and when all have ended memory is exactly what the same calls one after the other leave. Not given by the code: the first write of a document, although it takes a const pointer, may not run beside another: two threads that write {\"b\": 1, \"a\": 2} for the first time can leave \"b\" in it twice and \"a\" nowhere, so that destroying it frees memory twice, and three can read outside the array.", "quantifier": "every program, any number of threads, every interleaving of their accesses to memory", "why_tests_cant": "a race shows only under particular schedules of steps a test cannot choose", "anchors": ["libutils/json.c:JsonWrite,JsonWriteCompact,JsonSort,JsonObjectWrite", "libutils/sequence.c:SeqSort,QuickSortRecursive,Swap"]}
