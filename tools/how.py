def h(ids,t):
    for i in ids.split():
        if '-' in i:
            a,b=i.split('-')
            for k in range(int(a[1:]),int(b[1:])+1): HOW['C%02d'%k if k<100 else 'C%d'%k]=t
        else: HOW[i]=t
h("C01","slots, end, length; refinement to the last min(n, capacity) elements of the history, by induction")
h("C02","heap of doubly linked nodes; abstraction to a list, refinement over every history")
h("C03","array, size, capacity; refinement to a list over every history")
h("C04 C96","array, length, capacity, memmove as slot copy; refinement to lists")
h("C05","the recursive quicksort on the array; permutation and sortedness by well-founded induction")
h("C06","the loop; invariant on the bounds")
h("C07 C08 C09","14-slot array map, hash buckets, conversion between them; refinement to a finite map, log of destroyed handles")
h("C10-C13 C57 C58","zipper red-black tree with the code's rotations; ordering, balance and contents invariants by induction over histories")
h("C14 C16","critical sections on a circular array; refinement to a list over every history, threads by interleaving the sections")
h("C15 C59","transition system of threads, mutex and condition variables; inductive invariant relating sleepers, signals and items")
h("C17 C54 C74 C75 C105","heap of nodes, lists and reference counts; separation-style representation invariant, simulation of the abstract lists")
h("C18 C60","allocation with capacity and used; refinement to a byte list per mode")
h("C19","growing allocation; refinement to concatenation")
h("C20 C21 C61","parser automaton and writer over bytes; structural induction")
h("C22 C62 C84","escape functions; induction, decoding as left inverse")
h("C23 C71","escape and unescape; induction")
h("C24-C29 C72 C73 C88","JSON tree, writer and recursive parser over bytes; mutual structural induction, grammar as an inductive relation")
h("C30 C31 C69 C70","length-prefixed serializer over explicit memory; induction, schedules of reads for files")
h("C32 C33 C35","the parser automata run over the text; simulation of the grammar, exact accepted language for IPv4")
h("C34","case analysis over the comparison functions")
h("C36 C55 C113","64-bit arithmetic; bit-level argument")
h("C37","destination as memory; induction over the copy loop")
h("C38 C39 C40 C41 C42 C43 C44 C48 C49 C52 C53 C63-C68","string functions over byte lists or memory; induction")
h("C45","integer components; case analysis")
h("C46 C47 C89","system calls completing as an arbitrary schedule; induction over the schedule")
h("C50 C106-C109","abstract POSIX filesystem, adversary step between any two system calls; invariant over the run, exact result on quiet filesystems")
h("C51","registered list; induction")
h("C56 C121","through the map model; induction over the text or the array")
h("C76-C80","replacement loops over byte lists or memory; induction")
h("C81-C83","recursive renderer over offsets in the template and paths in the data; well-founded induction, evaluation of an independent syntax tree")
h("C85 C86 C87","automata over bytes; induction, finite tables by kernel computation lifted to all words")
h("C90 C91","stdio contract as schedule; induction")
h("C92","transition system of any number of processes over a record-lock kernel; inductive invariant")
h("C93 C94 C95 C97","functions on JSON trees; structural induction, simulation of cursors")
h("C98 C99 C100","the directive automaton writing into a block; induction over the format, specification of each conversion from C99")
h("C101 C102","static variables as a state; simulation of a left-to-right reading of the vector, permutation invariant")
h("C103 C104","job of literal and group pieces, PCRE as parameter; induction over the matches")
h("C110 C111 C112","per-thread contexts in a state, calls as steps; induction over the history")
h("C114 C115 C116","OpenSSL as parameter, reads as schedule; induction over the reads")
h("C117","every memory access a step of a thread; forward simulation to an atomic stack, linearization points shown explicitly")
h("C118","queue of socket messages with attached files; simulation of a first-in first-out channel")
h("C119","PCRE as parameter; array bounds and induction over the groups")
h("C120","fgets on a 1024-byte array; induction over the lines")
h("C122","libyaml as its event sequence; induction over the document tree, stack of open containers")
h("C123 C124 C125","composition of the line, record and whole-file readers with the parsers; induction over the lines")
h("C126 C127 C128 C129","threads run programs of single accesses to the shared structure over a generic machine with a mutex and condition variables (Model/Monitor.lean, DequeThreads.lean, QueueFine.lean); forward simulation to the sequential object, with the effect at the last unlock; lost wake-ups by a credit invariant per condition variable; refuted cases by concrete schedules")
h("C130 C131","threads, mutex, working directory and descriptor table as a transition system with an adversarial kernel; invariant relating it to the state of the specification acceptor; a rank that every step of a thread decreases")

h("C132","long double arithmetic as exact rational results rounded to 64 bits; rounding is monotone, so the decimal exponent of every double follows from its value at the two doubles next to each power of ten, which the kernel computes; error bounds by rational arithmetic; digits by induction")
h("C133","a heap of blocks (elements, names, texts, child arrays) with allocation and free; the heap is exactly the disjoint union of the blocks of the trees held (multiset invariant), preserved by every call by induction on trees; values read back from the heap")
h("C134","the parser with the heap of C133; simulation of the value parser by induction on the recursion, each exit path shown to free its blocks")
h("C135","sscanf %x as a function; induction on the digits; the procfs printer as specification")
h("C136","the array of pointers with its terminator; loops by induction; lookup relation as specification")
h("C137","loop over an arbitrary listing that satisfies POSIX' guarantee; set of descriptors by filters")
h("C138","loop with an arbitrary world between system calls; induction on the attempts")
h("C139","heap of blocks with an oracle for malloc; list predicate with its blocks, segment lemma for appending, by induction")
h("C140 C141","blocks and streams with room left; representation invariant for each kind of writer, by induction on the calls; the help text as a series of formatted writes")
h("C142","static buffers as state; invariant over histories of calls; frame theorem for returned pointers")
h("C143","ordered fields; induction on the samples; floor and ceiling")
h("C144","loops over lists of cells with bounds; loop invariant")
h("C145","three bytes at a time; decoder specified separately; lines by induction on blocks of 48")
h("C146","refinement: the children against a record of members, by induction on the calls")
h("C147","account of blocks and synchronisation objects up to permutation, preserved by every call")
h("C148","heap with a plan of failing allocations; account of blocks up to permutation")
h("C149","invariant: every field holds an allocated number of its own; one assignment lemma folded over the fields of each call")
h("C150","the calls as a list of operations on a writer (C140); a reader of roff sections, specified separately, applied to the text")
h("C151","calls of the system decided by scripts; case analysis of every path with a ledger of sockets and buffers; digits by induction")
h("C152","induction on the candidates and on the result lists; refinement of C38; component-wise matching by induction")
h("C153","loop invariants over memory, induction on the string")
h("C154","case analysis over the three kinds of calls given by C98; the message by composing C99 with itself")
h("C155","invariant over all schedules; from each state an explicit continuation")
h("C156","characterisation by induction on the tree; instances of C10")
h("C157","each step of the hash is invertible modulo 2^32 (odd factors, xor-shifts); induction on the string")
h("C158","arithmetic on sizes modulo 2^64; memcpy into a zeroed block")
h("C159","induction on the loop: what was read so far is a prefix of what the stream had; bit operations bit by bit")
h("C160","invariant over all histories: the lock table is what the results of the calls say; exclusive locks are alone")
h("C161 C162 C163","heap of nodes; representation predicate tying the heap to a tree whose payloads carry addresses, zippers for the node in focus; each rotation, fix-up and public function simulates the zipper model; invariant over all histories")
h("C164 C165 C166 C167","heap of blocks; representation predicate tying bucket array and chains to lists of items that carry their addresses; each loop simulates the functional hash map; invariant over all histories")
h("C168","induction over the strings: file and buffer together are the text so far; C69 for reading")
h("C169 C170","digits as explicit lists; lexicographic comparison field by field; numerals from C40")
h("C171","2^176 <= 10^53, so n bytes need at most 53n/22+1 digits; store into a block of that size")
h("C172","case analysis over the byte order; a word and its four bytes determine each other")
h("C173 C174","loops by induction over the string; integer arithmetic for the macros")
h("C175 C176 C177 C178 C179","integer and rational arithmetic; filter of the environment; simulation of sscanf on a block with unwritten cells")
h("C180","small steps with an arbitrary schedule; backward simulation: what a state can still write, together with what was written, is an output of the thread alone")
h("C181 cleanup threads","step relation over thread program counters and a heap of nodes; invariant by phase of the mutex holder; potential function for the number of steps; concrete schedule for the finding")
h("C182 several sequences","heap of structures and arrays; invariant that names the two blocks of each sequence; every function refines the one of Model/Seq on the first sequence of a permuted list; counting of items for ownership")
h("C183 shuffling","exchange of positions: naturality for the order, surjectivity by induction from the last place, injectivity by what stays above the loop index")
h("C184 known directories with threads","byte-wise steps under any schedule; invariant that every byte is 0 or the right one and that readers and writers have seen the beginning; monotone once full; concrete schedule for the finding")
h("C185 running out of memory","heap of blocks with an oracle for refusals; invariant on the nodes of the cleanup list; each call evaluated in all its endings; loop lemma for the cleanup functions")
h("C186 every line of CSV","grammar as inductive relations; simulation of the automaton on each form with its memory block; every text is in one of the three relations by induction on its length; exactness from determinism")
h("C187 containers in one memory","heap of blocks; invariant that the live objects own disjoint blocks that are all there is; each call evaluated under it and its effect framed; refinement of the relational specification by induction on the program; accounting by counting on the specification")
h("C188 buffers in one memory","heap of structures and arrays; invariant that the live objects own disjoint blocks that are all there is; the one-buffer lemmas of C36 lifted to the heap with a frame; refinement of a functional specification in which pointers go stale when their buffer changes, by induction on the program")
h("C189 writing in memory","heap of blocks of C133; the sort is parametric in its items (it sees them through the comparison), so sorting pointers by name sorts the plain members; induction on depth and over children for both styles at once; frame by a separate induction that needs no hypothesis on the heap; an invariant on all calls that members have names")
h("C190 threads that write","writing as a program of single accesses; quicksort of a strictly ascending array stores only what is there; programs that are quiet in this sense run together unchanged under every schedule, by induction on the schedule; a thread alone refines the functions of C189 (quicksort step by step), what it does on its part of memory it does on all of it (frame), parts of apart elements are disjoint, so every schedule ends where the calls in turn end; findings by two schedules evaluated in the kernel")
