# Formal model of lightspeed – design

The source under `/repo` (ondra-novak/lightspeed, pinned) is read as text.  Every
Lean module under `lean/Verif/` models one header/source pair, function by
function, with a comment on each definition naming the file and lines.

## General modelling conventions

* Platform: LP64 Linux. `natural` = 64-bit unsigned, `integer` = 64-bit signed,
  `byte` = 8 bit, `wchar_t` = 32 bit.  Where wrap-around matters the model uses
  `BitVec`/`UIntN`/`Nat` with explicit `% 2^w`; where it cannot be reached
  (indices bounded by a capacity that fits in memory) plain `Nat` is used and the
  module says so.
* Undefined behaviour (null dereference, read of uninitialised memory,
  out-of-range access, endless loop) is a distinct outcome of the model
  (`none`, a `fault` constructor, or an `uninit` cell), never a default value.
* C++ exceptions are a distinct outcome as well (`throw`/`Except`).
* Streaming converters are modelled as state machines with the flags the class
  really has; a generic driver models `ConverterBase`.
* Concurrent code is modelled as a labelled transition system.  One transition
  = one atomic access to shared memory (interlocked operation, or plain
  load/store of a shared word), sequentially consistent, for an arbitrary number
  of threads.  Safety properties are proved for every reachable state by an
  inductive invariant.  Operations protected by a lock proved elsewhere may be
  one transition; the module says where that is done.
* Specifications live next to the property theorems (files `...Props.lean` or the
  section marked `Spec`) and do not use model helpers.
* If the code violates a property the negation is proved with a concrete witness
  (theorem name ends in `_violated`), the part that does hold is proved as
  `_partial`, and the disagreement is listed in the section "Disagreements".

## Trusted base

* Lean 4.33.0 kernel, axioms `propext`, `Classical.choice`, `Quot.sound` only.
* The reading of the C++ source: model definitions are transcribed by hand.
* Sequential consistency of the interlocked primitives in `mt/atomic.h`
  (they map to `__sync_*` full-barrier builtins).
* Member functions called on a null `this` (`avltreenode.h`) do what their test of `this` says.
* Not modelled: the operating system, memory allocation failure (unless said),
  exceptions thrown from user copy constructors, Windows-only sources, network,
  file and process code, debug logging, floating-point formatting and parsing.

## Plan per property
* **C01 Compact number round trip** – `compressNumb.cpp` as function `Nat→List byte` plus decoder state machine; arithmetic proof per width.
* **C02 Compact number streams are self-delimiting** – decoder run over `flatMap encode`, induction over the list using C01 with arbitrary continuation.
* **C03 Compact encoding preserves order** – lexicographic order on byte lists (own spec), case split over widths.
* **C04 Base64 round trip** – encoder/decoder state machines of `base64.cpp`, induction in steps of three bytes.
* **C05 Base32 round trip** – as C04 with groups of five bytes; unpadded mode is violated (last partial character unreadable).
* **C06 Base16 round trip** – table with `uninit` cells; uppercase round trip; lower-case input to the default decoder hits uninitialised cells.
* **C07 Base85 round trip** – as C04 with groups of four; tail truncation by arithmetic on base 85.
* **C08 URL encoding round trip and safety** – filter state machines of `urlencode.cpp`.
* **C09 UTF-8 round trip** – encoder thresholds and decoder state machine of `utf.cpp`, against the standard UTF-8 bit layout.
* **C10 LZW round trip** – bit level: `Waits`/`write_bits` (a code goes out as its bits), `Holds`/`feed_codes` (the bits come back as codes with the widths the decompressor expects); dictionary level: invariant `Sync` (the decompressor is one item behind the compressor), `emit`, `inv_step`, `inv_flush`; `c10_lzw_roundtrip` for every byte string and every `maxBits >= 9`. `round_trip` is generic in what the clear code does (`ClrOK`). The output queue of 16 bytes never overflows (part of the proof: `write_bits` needs < 128 bits).
* **C11 LZW stream segmentation** – negation `c11_lzw_segments_violated` and `c11_padding_violated`; positive part `c11_lzw_segments_partial`: each flushed segment given to a new decompressor.
* **C12 Converter block operations are chunk-independent** – generic converter record (`Conv`), any converter: blocks = one block (`c12_blocks`), pending items first (`c12_pending`), a block taken whole = single writes (`c12_items`), read iterator = block write + flush + drain (`c12_pull`). Converters that do not end a logical block: all three ways agree (`c12_write`, `c12_read`), with instances for the twelve converters modelled (`c12_library`). Block reads: `c12_blockRead_partial` for converters whose flush may come early; violated after `hasItems`. Not modelled: `ConverterChain`, the text filters. Partial.
* **C13 Deque behaves as a double-ended sequence** – ring buffer model; refinement to `List` for all operations.
* **C14 Queue is FIFO and Stack is LIFO** – corollary of C13 through the queue/stack wrappers.
* **C15 Heap sort sorts** – array model of `sort.tcc`; heap invariant; permutation and sortedness.
* **C16 Heap operations keep the maximum on top** – same module as C15.
* **C17 Priority queue pops exactly one item** – negation with a concrete run; partial: top is the maximum.
* **C18 AVL tree is a sorted set** – inductive tree with stored balance; insert/remove transcribed; membership theorems.
* **C19 AVL tree stays balanced** – same model; balance invariant and height bound.
* **C20 AVL iteration visits every key once in order** – path-stack iterator model; in-order list.
* **C21 AVL tree size is exact** – proved for `AVLTree` (removal through an iterator included); negations for iterator erase and clear of `AvlTreeBasic`.
* **C22 B-tree insertion, lookup and rank** – model `BTree.lean`: `Search` (linear and binary), `Find`, `ItemWithRank`, `RankOf`, `Add`, `_InsertNonFull`, `_SplitChild`, with the local stack of 50 nodes as a possible overrun. The height is an index of the node type. `BTreeProps.lean`: the items of a tree from left to right; `add_spec` shows that an insertion into a sorted tree inserts the item into this list or finds an equal one, keeps fill limits and subtree sizes. `c22_find` for all sequences shorter than 2^50, `c22_rank_partial` for different items, `c22_duplicate_violated` for the rest.
* **C23 B-tree removal** – model `BTreeRemove.lean`: `Remove`, `_DescendInto`, `_Adjust` with merge and both rotations, `updSubtree`, for plain data items; `none` is the use of a null array, and the run records its actions. `remove_spec`: a run without the two wrong actions takes exactly one equal item out of the list of the tree (or finds none) and keeps limits and sizes. `c23_least_partial` and `c23_spare_partial` show two kinds of trees where every removal is such a run; four witnesses show the wrong ones.
* **C24 Dynamic array editing** – cells of memory (raw/constructed), allocators as parameters; refinement `Holds` to a sequence; every function plus sequences of calls (`c24_edits_partial`). `insert`/`insertArray` need a non-zero count, `erase`/`add` sums below 2^64, arguments from outside of the array; the other cases are proved to be undefined behaviour or loss. Not modelled: exceptions of item constructors, `insertArray` of the array itself, copies of the insert iterator. Partial.
* **C25 Array-based ordered set** – Items as a list with `orderedCount` (`ArraySet`); the invariant is that the prefix is sorted; binary and linear search, insertion ordering and heap ordering are proved against it for every strict weak order (`C25_find_partial`, `C25_create_find_partial`, `C25_items`); seven negations. Not modelled: `filter`, `merge`, `remove`, `crop`, `getOrdered`, which cannot be compiled.
* **C26 Linked list keeps order under copy and removal** – Memory of numbered cells with released cells (`LinkedList`); the chain of nodes (`Seg`, `RepL`) is the invariant and every sequence of valid operations refines a plain list (`C26_operations_partial`); assignment right, copy reversed (`C26_copy_partial`), and six negations. Not modelled: functions taking nodes of the caller other than `remove`, swap, move, serialize.
* **C27 Write buffer delivers bytes in order** – `WriteBuffer` over an adversarial device (`Buffer.lean`). Any program of `write`, `unwrite`, `flush` on a new buffer runs without undefined behaviour and its result is `Admissible`: the device has the items once and in order, the rest waits; in `flush` the device may take any part of each block. Partial: in `write` the device must take whole blocks (`c27_violated`). The template calls members which the array class lacks (`expr`, `size`), so it cannot be instantiated as it stands.
* **C28 Read buffer returns device bytes in order** – `ReadBuffer` over a device which splits its items into any blocks: every program of `getNext`, `peek`, `hasItems`, `unget` refines a plain list (`Spec`), and taking back never fails just after a read. Partial: `peek(n)` and devices which end without an exception are violated.
* **C29 Fast lock mutual exclusion** – transition system over queue slots and owner word; invariant.
* **C30 Fast lock hands over in arrival order without losing a waiter** – same system; queue order history variable.
* **C31 Micro lock mutual exclusion and hand-off** – transition system for `microlock.h`.
* **C32 Spin lock ownership** – transition system for `spinlock.h`; steal negated.
* **C33 Reader/writer lock safety** – LevelLock operations under its internal lock; invariant.
* **C34 Reader/writer lock availability** – negation with concrete history.
* **C35 Mutex exclusion and recursion** – transition system for `mutex.cpp`; negation for tryLock.
* **C36 Semaphore never over-grants nor loses permits** – operations under the queue lock; invariant on counts; negation for timed lock.
* **C37 Gate wake-up is never lost** – transition system of `gate.h`.
* **C38 Synchronisation point notifies each waiting slot once in the configured order** – operations under the internal lock; list refinement.
* **C39 Lock-free stack linearizability** – transition system with addresses and cookie; negation by ABA history; partial when less than 16 pops and no take overtake a pop, with one consumer, or without `pop`.
* **C40 Promise resolves once and notifies every observer once** – `Promise`, `PromiseInv`, `PromiseInvB–D`, `PromiseProps`: a transition of a thread is a critical section of the lock or a step of a notification outside it; any number of threads, any interleaving; calls made by callbacks are calls of other threads. History of events; `c40` and its companions speak about the history only. `unregisterObserver` is modelled as the rotating loop it is and proved to be removal (`unregister_eq`). Simplified: an observer is registered once, `wait` on an already expired timeout and `tryObserver` are left out, the observer of `wait` is known only to `wait`.
* **C41 Abandoned promise releases its waiters** – the same model with the reference counter of promises; `c41_partial`, `c41_violated`.
* **C42 Message queue delivers exactly once in order** – interleaving model of posters and one worker (post, priority post, getNextMsg, wtFlush, wtCancelMessage), every shared access a transition; refinement of a sequential queue by an invariant over the two linked lists; partial: the order of evaluation of `!=` in the posting loop is a parameter, with the late one the negation is proved.
* **C43 Dispatcher runs every dispatched action** – Transition system of the dispatching thread and any number of others (`Dispatch`); an invariant on the queue: its front is never removed, only nulled (`C43_in_order_partial`, `C43_first_partial`); the negation holds in every reachable state (`C43_later_actions_violated`), with a witness.
* **C44 Scheduler fires the expired event** – `onIdle` over the heap model of C16, for every set of events (`C44_heap_partial`); the general negation `C44_violated`. `Timeout`/`SysTime` are a natural number.
* **C45 Parallel executor runs each accepted action exactly once and keeps accepting** – Transition system of the caller and any number of workers, one transition per shared access (`ParExec`); inductive invariants for exactly-once and hand-over, for all histories (`C45_exactly_once`, `C45_handover`); no lost wake-up and a rank for progress with the default settings (`C45_no_lost_wakeup_partial`, `C45_progress_partial`, `C45_enabled_partial`); the hang after `stopAll` (`C45_stuck`, `C45_after_stop_violated`).
* **C46 Resource pool limit** – Transition system of any number of operations, one transition per access to `curLimit` or section under the lock (`ResPool`); ownership invariant by induction (`C46_one_holder`, `C46_no_resurrection`); counting invariant `curLimit + charged resources = limit` (`C46_limit_partial`, `C46_limit_serial`); a schedule for the negation.
* **C47 Reference counted objects die exactly once** – Transition system of any number of threads, pointers and objects, with pointers as members of objects and cascades of destructors (`RefCnt`); rules of use as guards of operations; invariant of 40 fields by induction (`RefCntStep`), counter = number of counted pointers; witnesses for the three misuses that the operators do not handle.
* **C48 Weak reference never outlives its target** – Transition system of `lockCount`, `clearOutNotify` and the sleeper with any number of users (`WeakRef`); counting invariant by induction; witnesses for the late wake-up and for the implicit assignment of `WeakRefPtr` (sequential model).
* **C49 Shared resource groups are exact** – `next` as a function on addresses, every method (`SharedRes`); refinement of a relation "shares with" on living objects by rings (`C49_groups_partial`); negation for self assignment.
* **C50 Cluster allocator hands out disjoint blocks** – Byte memory, headers, linked lists of clusters, any number of size classes (`Cluster`); users may write any byte of their blocks and the environment any byte outside of clusters. Invariant: the links of each cluster form a list of exactly the blocks that are not handed out (`ClusterInv`, `ClusterStep`); reuse by induction on the number of free blocks; witnesses for the three violations.
* **C51 Greatest common divisor is correct** – binary gcd loop; equals `Nat.gcd`.
* **C52 Rational arithmetic is exact and normalized** – two's complement model; partial for non-negative numerators; negation for negative.
* **C53 Rational power** – negation (the result is a repeated square, wrong for every base other than -1, 0, 1); partial for exponent 0 and bases 0 and 1.
* **C54 Time stamp arithmetic** – 32-bit fields; arithmetic.
* **C55 Time interval constructors** – negation for minutes, proofs for the others.
* **C56 Calendar dates round trip and are canonical** – day-number arithmetic; negation for canonical form, partial round trip.
* **C57 Integer text conversion round trip** – `ToString`, `numberToString`, `parse…Number` and `stringTo…Number` against a separate value function for numerals; all bases 2 to 36, both letter cases, anything may follow. `NumText.lean`, `NumTextProps.lean`.  Partial: -2^63.
* **C58 JSON string round trip** – `c58_string_round_trip`, through the grammar of JsonSpec (RFC 8259): the serializer writes it, the parser reads it.
* **C59 JSON document round trip** – partial, mutual induction over documents and over the grammar; negation for a one digit integer at the end of the input and for -2^63; `parse_fuel`: the fuel of the parser never runs out.
* **C60 ASCII-only JSON round trip** – ASCII proved; round trip partial below U+10000; negations for U+1F600 and U+07FF.
* **C61 Binary JSON round trip** – BinJson.lean models writer and reader of binjson.cpp over the documents of Json.lean (opcodes read through the UTF-8 decoder of Utf.lean). Partial: round trip by mutual induction for documents without arrays, positive numbers and strings outside of the table. The negations are proved for every positive number and every other string, and with witnesses for nested arrays.
* **C62 CRC-32 is the standard CRC** – table as literal; bitwise spec; induction over bytes, finite table check by kernel `decide`.
* **C63 CRC-32 detects burst errors** – linearity of the CRC step.
* **C64 Digest updates are chunk-independent** – the model of `md5.cpp` and `sha1.cpp` is proved equal to a separate transcription of RFC 1321 / FIPS 180-4 (`DigestSpec.lean`) by an invariant "state = fold of the block function over the full blocks so far, buffer = rest"; chunk independence is a corollary.  MD5 for pieces below 2^28 bytes. `Digest.lean`, `Md5Props.lean`, `Sha1Props.lean`.
* **C65 Message ordering in the timed queue is a sorted merge** – The in-place bottom-up merge sort over the buffer of list heads is modelled slot by slot (`OldSched`); every pass keeps: sorted nonempty lists, a permutation, and posting order per due time (`C65_sort`, `C65_stable`).
* **C66 Rational floor and ceiling** – two's complement division; partial for non-negative numbers, negation otherwise.
* **C67 Day number overflow** – partial for days 1..365 counted from any month; negation with day 366 and with day 0 (read outside of the month table).
* **C68 Fast lock, unlock of a foreign slot** – negation with a concrete history on the C29 system.
* **C69 Fast lock, asynchronous lock of a free lock** – negation with a concrete history.
* **C70 Synchronisation point, slot reuse** – negation: `charged` is never cleared.
* **C71 A closed gate stops threads** – negation by overlapping open and close; partial for one controlling thread.
* **C72 Taking the whole lock-free list** – negation; holds with one consumer or without `pop`.
* **C73 Iterator returned by AVL insert** – negation after a double rotation; holds for an existing key.
* **C74 AVL insert of a node reports an existing key** – negation for a flag that is false or missing; partial for true.
* **C75 IOBuffer reads the source in order** – proved: `IOBuffer` over a device with arbitrary chunk script; every program of reading calls (read, peek, canRead, fetch, discardInput, putBack, reserveWrite) meets the stream specification; negation for `peek` of zero bytes.
* **C76 IOBuffer writes once and in order** – proved: every program of writes and flushes over a target that takes arbitrary parts of the blocks or closes itself; after flush nothing is left.
* **C77 IOBuffer shares one memory for both directions** – partial: mixed programs whose writes do not meet a buffer full of input and whose putBacks do not meet pending output; everything accepted is sent before the source is asked; negations with witnesses for the calls left out.
* **C78 Message queue counts its messages** – partial: exact whenever no poster stands between its exchange and the increment and the worker holds no message; negation with a schedule where `length()` is -1 and a message waits.
* **C79 Observer of wait is not used after wait returned** – the model of C40 with the lifetime of the observers of `wait`; an access to a dead one is the outcome `ub`. `c79_partial`, `c79_violated`.
* **C80 Future is canceled when its last promise is gone and only then** – `PromiseRef`: the promise objects, their pointers and the counters; `c80_partial` (one operation), `c80_run_partial` (histories), `c80_violated` for assignment.
* **C81 array expressions** — `ArrayT.lean`: an inductive type of flat arrays, sections, reversals, sums and repetitions, every member function by its class; specification `Arr.den` (a list). Lengths and items by induction over the expression. `empty` partial, violated.
* **C82 forEach** — `forEach_fine` (every range, no sums) and `forEach_fine0` (ranges from the first item) by induction over the expression; violated for ranges across the border of a sum, UB for repeated empty arrays.
* **C83 find** — specification `First`; `c83_*_partial` for flat arrays, loop invariant in `findSeqLoop_right`; violated for sections of expressions.
* **C84 findLast** — specification `Last`; exact behaviour of `findLast(array)` in `findLastSeq_eq`; violated.
* **C85 sections** — `take`/`drop`; `trim` by `Trimmed`; overflow of `mid` and `crop` violated (out-of-bounds reads).
* **C86 split** — `join` of the parts and absence of the separator, and uniqueness of such parts; violated for expressions.
* **C87 compare** — `Lex`, an inductive lexicographic order, total and asymmetric.
* **C88 render** — prefix and count; `render(array)` violated.
* **C89 MD5 standard** — the 64 `SET` instructions are compared with the generated instruction list of the RFC; buffer invariant; the two length words are one 64-bit number.  Partial: pieces below 2^28 bytes.
* **C90 SHA-1 standard** — registers are 64 bits wide in the code; only the lower halves are compared (`lo` is a homomorphism for every operation used); the 16-word ring is the message schedule.
* **C91 MD5 iterator** — digest and hexadecimal text after one `finish`; a second `flush` violated.
* **C92 numberToString buffer** — exact: undefined iff text and zero do not fit into the real memory, whatever `size` says; 66 characters always suffice; overrun violated.
* **C93 parsed numbers** — value modulo 2^64 in general, the number itself in range, failure iff no digit in front; violations for overflow, wide characters, -2^63, "-+5".
* **C94 JSON writer output is standard** — partial; grammar of RFC 8259 as mutual inductive relations (JsonSpec); negation for U+1F600 with escapes.
* **C95 JSON parser reads standard JSON** — partial; induction over the grammar with white space, all escapes and unordered members; four negations.
* **C96 B-tree iteration** — model `BTreeIter.lean` (`Reset`, `More`, `Next`); the items behind a path are a function of the path, and `next_spec` shows that `Next` gives the first of them. `c96_iterate`: the loop gives all items with ranks 0, 1, …, then the null pointer. `Previous` is not modelled.
* **C97 B-tree iteration from a key** — `BeginFrom` in `BTreeIter.lean`; `c97_begin_from_partial` for keys which are not in an inner node, `c97_inner_violated` for the others.
* **C98 timed queue order** — histories of posting and pumping at any clock; invariant: the prepared queue is sorted by absolute time (`C98_earliest_due_partial`, `C98_fifo_partial`); negation with untimed messages. One thread; the lock-free lists are C42.
* **C99 thread limit of the executor** — on the C45 system: a list of all started workers is as long as the counter (`C99_limit_partial`); a history with a timeout for the negation.
* **C100 limit of a pool changed** — the C46 system with `setLimit`; invariant with the new limit after one raise (`C100_raise_once_partial`), histories for the negations.
* **C101 waiters of a pool** — on the C46 system: invariant `queue not empty → pool empty` and a counting invariant (`C101_not_stranded_partial`); two schedules for the negation.
* **C102 SharedPtr** — all methods on top of the rings of C49; refinement of a map from pointers to objects with a log of deletions (`C102_refines`), from which deletion exactly once follows (`C102_once`).
* **C103 Cluster allocator reports exactly the blocks not returned** — same model; the loop of `reportLeaks` marks exactly the list of the invariant.
* **C104 Fields of a query** — `Query.lean`: `cut`, `parts` (ConstStr::find/split), the two result slots with `preload` exactly as written (recursive call on an empty part, then overwriting). `QueryProps.lean`: round trip against `compose` (percent encoding from the spec of C08), and for any query without empty parts.
* **C105 Items of the command line** — `Query.lean`: `Cmd.peek`/`getNext`/`getNextText` over the vector of arguments with the two positions; `QueryProps.lean`: against the relation `Means` (what an argument stands for), by induction over arguments and over the letters of a bundle. `getNextNumber` and the comparison of iterators are not modelled.
* **C106 Period of the random generator** — `Random.lean`: `Rand::fetchNext` with 64 bit arithmetic; `RandomProps.lean`: with `z = x + 2^32·carry` a step is `z ↦ 2083801278·z` modulo `N = 2083801278·2^32 − 1`; `N` and `(N−1)/2` are prime (Lucas certificates, powers computed in the kernel), so the order is `(N−1)/2`; two values in a row determine the state.
* **C107 Random numbers of a range** — `transformN`, `transformI` (undefined behaviour on signed overflow is a distinct outcome); range by arithmetic, uniformity by counting preimages (`count`).
* **C108 A file in memory** — `MemFile.lean`: `MemFile`, `MemFileStr` with 64 bit arithmetic, `memcpy` outside of the buffer and use of the uninitialised member as undefined behaviour; `MemFileProps.lean`: specification `File` (length and byte at each place), refinement by induction over the calls.
* **C109 The sorting filter** — `SortFilter.lean` over the heap of C15/C16 with the limit of the allocator as parameter; `SortFilterProps.lean`: specification `Bag` (relation on calls with results), invariant (buffer is a heap; an extra item only when it is full), induction over the calls.
* **C110 LZWp** — `Lzwp.lean` (both `optimizeDictionary`); `LzwpProps.lean`: the invariant of C10 extended by the marks of both sides (the compressor has marked what the decompressor has, and the items of the current code; marks are closed under previous codes), the two renumbering loops run in step; full round trip for nine bits (`C110_nine`), for any width when no pruning leaves the next code at `2^w` or `2^w-1` (`C110_trip_partial`); `LzwpBad.lean`: a text for every limit over nine bits which is not decompressed, by induction over its parts (`C110_violated`).
* **C111 line reader** — `TextIn.lean` (`Reader`); `TextInProps.lean`: lines defined by `Line` (up to the first separator); every sequence of calls gives the lines (`C111_reader`), and reading until the end gives all (`C111_lines`).
* **C112 readLine** — `TextIn.lean` (`peekLine`, `readLine` on the look-ahead buffer); right when every beginning of a separator in the text is complete (`C112_partial`, `C112_lines_partial`), hence always for a separator of one character (`C112_char`); violated otherwise.
* **C113 look-ahead buffer** — `TextIn.lean` (`Buf`, `It`); the specification keeps only places in the text; all sequences without reading at the end and without iterators left behind refine it (`C113_partial`); both exceptions violated.
* **C114 merge** — `Merge.lean`; `MergeProps.lean`: `Gen` follows the documentation of the functor result (merge.h:21-44); `C114_iterator` for all functors and all calls, `C114_concat`, `C114_sorted`, `C114_union`; `MergeSortFn` only when the greatest item is on the left (`C114_sortFn_partial`), violated otherwise. `SplitIterator` and `getRemain` not modelled.
* **C115 chunked bodies** — `Http.lean` (sender and receiver function by function; the map of headers is a list in order of insertion, the code sends it in order of names); `HttpProps.lean`: the grammar `Chunked` of RFC 7230 is separate; `C115_send` (all writes, flushes, changes of the chunk size), `C115_receive_partial` (all chunked bodies whose sizes have no small letter inside, without trailer, all calls until the end), `C115_sizes` (exactly which sizes survive), `C115_trip_partial` (sender to receiver with chunks up to 415 bytes).
* **C116 bodies of known length, until the end** — `HttpHeadProps.lean`: `C116_direct` (all calls), `C116_limited_partial` (all calls that do not read at the end), `C116_reset_partial`.
* **C117 heads** — `HttpHeadProps.lean`: `C117_open_partial` for every head with any fields; `C117_body_partial`, `C117_chunked_partial` head and body together; `C117_request_partial` for the head of requests.
* **C118 INI files** — `Ini.lean`: the parser byte by byte with `trim`, `mid` (64 bit wrap), escapes, the loops of `merge`; undefined outcomes for `isspace` of negative `char` and for a section of the string behind its end. `IniProps.lean`: grammar of lines (`Line`, `Line.Wf`, `eval`, `text`), `C118_parse_partial`: all files of well-formed lines whose values are not single characters behind blanks (`LeadOk`, exact by `C118_trim`), for both settings. Violations listed below. Missing: lines with errors in the general theorem, contents of included files.
* **C119 INI lookup** — `Ini.lean` (`ci`, `less`, `insert`, `getValue`): the multimap as the sorted list of its tree with the comparison of the code; `IniMapProps.lean`: the order is the lexicographic order of names in small letters, insertion keeps the list sorted and appends the value, `C119_getValue` for all files and indices. Names with zero bytes are outside of the statement (`C119_nul`).
* **C120 INI listing** — `IniMapProps.lean`: `C120_enum_partial` for sections spelled in one way and no prefix; `C120_violated`: the prefix is ignored (`C120_prefix`); sections asked in other letters or spelled in two ways (`C120_case_violated`, `C120_mixed_violated`).
* **C121 MapReduce** — `MapReduce.lean`: the AVL functions again with the flag `dirty` and the kept result of each node, `updateNode`, `reduce`. `MapReduceProps.lean`: without flags the functions are those of `AvlTree.lean` (`strip_*`), so C18 applies (`C121_set`: no failure and the right set for all sequences); invariant "a node that is not dirty holds the result of its subtree"; `C121_reduce_partial` for sequences without an erasure after a `reduce`. `C121_violated`, `C121_take_violated`, `C121_rotate_violated` for erasures after a `reduce`. The ranged `reduce` is declared but not defined in the code.
* **C122 String pool** — `StrPool.lean`: the pool as a list with the number of its block; whether a growth moves the block is a flag of each call, `poolRef` is the number it was last set to (or nothing), reading through an old number or behind the end is undefined. `StrPoolProps.lean`: the specification keeps text and mark of every string held; invariant `Inv` over all sequences gives `C122_read_partial`; `C122_zero` (zero behind the text), `C122_fromMark_partial` (types without ending zeros). `C122_violated`, `C122_writer_violated`, `C122_fromMark_violated`, and the documented limit of 32 bits (`C122_limit`). Not modelled: copies of pools, strings of one pool given to another.
* **C123 UTF-8 filters** — `UtfFilter.lean`: `WideToUtf8Filter::input` with `output` until empty, `Utf8ToWideFilter` as a machine (other code than the converters of C09). `UtfFilterProps.lean`: `C123_roundtrip` for all 32-bit values, negative ones too, in both modes; `C123_decode` (standard UTF-8); `C123_standard_partial` (standard form exactly but for two code points); `C123_accepts_partial` (exactly which texts are accepted). `C123_violated`, `C123_reject_violated`.
* **C124 Binary archives** — `BinFormat.lean`: types as codes `Ty` with values `Ty.Den`; `write` is `BinaryWriter`, `read` is `BinaryReader` with its `dynSection`; arrays and strings with the loops of lightSpeedTypes.h. `BinFormatProps.lean`: `C124_back_partial` by induction over the type, using C01 and C123; `C124_truncated_partial` (no proper prefix of a stored value is loaded), `C124_sync` (wrong marks throw), `C124_peek`. `C124_string_violated` (no string of two or more characters comes back), `C124_violated`, `C124_null_violated`. Left out: named sections (they write nothing), memory, `SerializeStruct` and class tables (they need `openTaggedSection`, which the binary formatter does not have), destructors that throw.
* **C125 Comparison of strings** — `StrCmp.lean`: `StrCmpCS`, `StrCmpCI` over a model of `strncasecmp`, literals (`makeCStr`), their operators, `cStr` with the memory behind a string. `StrCmpProps.lean`: `C125_cs`, `C125_ci_order` (the order of what `strncasecmp` sees, on all strings), `C125_ci_partial`, `C125_ci_weak`, `C125_ops_partial`, `C125_fromC`, `C125_cStr`, `C125_cStrW_partial`; `C125_le_violated`, `C125_violated`, `C125_ci_violated`, `C125_cStrW_violated`. Left out: which of the overloads the compiler takes for a comparison with a literal; locales; `iconv` (both conversions of linux/string.cpp:56-108 open it with its arguments exchanged).
* **C126 Names of enumerators** — `NamedEnum.lean`: indirect sort of the orders with the heap sort of C15, both searches. `NamedEnumProps.lean`: `C126_find`, `C126_name`, `C126_inverse`, `C126_toString`, with C15, C87 and a lemma on binary search.
* **C127 locking two locks at once** — `LockPair.lean`: any number of threads over any number of locks, one operation on a lock per step, exceptions and timeouts at any place; a thread uses one pair or one lock at a time. `C127_both`, `C127_exclusive`, `C127_exclusive_one`: invariant that owners are those whose place says so. `C127_waiting`, `C127_no_deadlock`: a waiting thread owns nothing; the owner of a lock can go on. `C127_livelock_violated`: an alternating run of period 12 in which nobody ever gets both locks. `C127_same`: a pair of one lock twice is never acquired. `multilock.h` is ill-formed when instantiated (`byter`, missing returns) and left out.
* **C128 numbers, remaining arguments and positions of a command line** — `CmdLine.lean`: all functions of `CmdLineIterator`, over arguments with the memory behind them; it goes beyond the model of C105 (`Query.lean`), which has no `getNextNumber`, `getRemainArgs`, `lessThan`. `getNextNumber` uses `NumText.parseS`. `C128_next`, `C128_items`: reading gives the items of a separate function `Spec.items`, from any position that calls reach; `C128_text`, `C128_number_partial`, `C128_number_format`, `C128_order`. `C128_remain_violated`, `C128_number_violated`, `C128_empty_violated`.
* **C129 linked list with iterators** — `RingList.lean`: the ring of items, the anchor, reference counts, and iterators in one state; pointer writes in the order of the code; use of an item that was given back is undefined behaviour. `Inv` says that the ring is a list of items, that references are those of the list and of iterators, and that erased items are linked with themselves; every operation keeps it. `C129_read` ties it to what iterators read. `C129_getRemain_violated`, `C129_oneItem_violated`, `C129_detached_violated`, `C129_erase_twice_violated`. Ill-formed parts (`getOwner`, `WriteIterator`, the copy constructor) are left out.
* **C130 iterators over a filter** — `FilterIter.lean` models `blockFetch`, `blockOutput`, `blockFeed`, `blockInput`, `FilterRead` (buffer with its three states, `peek`, `getNext`, `hasItems`, `blockRead` with the array), `FilterWrite` (with the room of the chained iterator), `NullFilter`, `TypeConversionFilter`, `HexEncoder` over any filter (five functions). The specification is a machine that gives items for each item and at the end; `Works F m` says that a filter implements it (instances: `NullFilter`, `HexEncoder`, `PlaceholderFilter`, conversion). Proved for every such filter: `C130_getNext`, `C130_peek`, `C130_read`, `C130_write`, `C130_flush`, `C130_write_all`, `C130_blockWrite_const`, and partly `hasItems`, `blockRead`, the mutable `blockWrite`, conversion. Violated: `blockRead` after `peek`, `readAll` exchanged, end of the source in `blockRead`, `writeAll` exchanged in one of the two `blockWrite`, `hasItems` for filters that swallow items or give some at the end, `flush` not handed on by `TypeConversionFilter`, `getRemain`, the item lost without room. Not modelled: state after an exception, `FltChain`, copying.
* **C131 placeholders** — `Placeholder.lean` models `declPlaceholder`, `PlaceholderFilter` and `PlaceholderConvert` function by function; the filter is an instance of C130, so `C131_read` and `C131_write` follow for every template of pieces (separate grammar with text and value of a piece). `C131_plain`, `C131_getValue`, `C131_convert`. Violated: `hasItems` before a variable with an empty value, a placeholder that is not closed is lost silently. `PlaceholderConvert::peek` is ill-formed.
* **C132 old Base64 filters** — `Base64Filter.lean` models `Base64EncoderT`, `Base64DecoderT` and `HexDecoder` function by function as filters of C130. `C132_encode`, `C132_encode_write`, `C132_encode_hasItems`: for every table, with and without padding, the text is the RFC 4648 text (the separate `rfc4648` of C04). `C132_decode`, `C132_decode_write`, `C132_roundtrip`: padded text of either alphabet, with foreign characters strewn in, gives the bytes; `C132_decode_unpadded_partial`: unpadded text unless two bytes are left over. `C132_hex`: hexadecimal digits. Method: `encWorks`/`decWorks` show that the filter works as a small machine (the obligation of C130), and the machine gives the RFC text by induction on groups. Violated: see Disagreements. The race in `base64_initTables` is only noted.
* **C133 old URL filters and 16-bit characters** — `UrlFilter.lean` models `UrlEncoder`, `UrlDecoder`, `BytesToWide`, `WideToBytes` as filters of C130, with bytes of `buff` that are not set as `none`. `C133_encode`, `_hasItems`, `_write`, `C133_decode`, `_hasItems`, `_write`, `C133_roundtrip` for every text against a separate grammar of pieces; `C133_wideToBytes`, `_hasItems`, `C133_bytesToWide_partial` (without the marks U+FEFF and U+FFFE), `C133_bom`. The decoder of URLs does not fit `Works` of C130 (it says that it has an item after `%`), so it is proved piece by piece. Violated: see Disagreements.
* **C134 strings** — `StringCore.lean` models the counted buffers, the string variables and the filling iterators of stringBase.h step by step (every addRef and release). The specification (`sstep`) knows only values: nil, a text, or a text being filled by a family of iterators. `C134_strings_partial`: a simulation over all histories gives length, characters, terminating zero, the C string, and exact reference counts; `C134_no_leak_partial`: all buffers are freed at the end; `C134_space_partial`: `hasItems` and the exception of `blockWrite`. Outside of the rules (`none` in `sstep`): see Disagreements. Not modelled: threads (the counter is atomic, C47), allocators that fail, character types with constructors.
* **C135 pool of blocks** — `PoolAlloc.lean` models poolalloc.h:8-103 for any number of threads; each access to a shared variable is one step (push and pop of the list are one step, see C39 and C72). The invariant counts the places of every block and the holders of references. `C135_blocks_partial`: for all interleavings no block has two owners, none is freed twice or freed while used; `C135_no_leak_partial`: everything is freed at the end, unless an allocation failed; `C135_size_partial`: blocks are large enough when no write of `largestAlloc` makes it smaller (`C135_size_one_thread`: always with one thread); `C135_reuse`, `C135_give_back`, `C135_not_ended`, `C135_end`: reuse before and freeing after the end. Not modelled: `MultiPoolAlloc`, the destructor running while other threads are inside.
* **C136 pointers with ownership** — `OwnedPtr.lean` models ownedPointer.h:47-182 with the inherited part of allocPointer.h; objects are addresses with the allocator that made them, variables hold pointer, flag (possibly unset) and allocator. `C136_one_owner_partial`: for all histories that keep `rule`, every object has exactly one owner (a pointer or the program); `C136_no_ub_partial`: with the address rule `ruleA` nothing is destroyed twice or by another allocator; `C136_no_leak_partial`; `C136_take`, `C136_destroy` say what the operations do. Not modelled: the const `<<=` (ownedPointer.h:157-163) writes to a non-mutable member and cannot be instantiated; copying of `AllocPointer` itself (allocPointer.h:165-171 writes to a const object).
* **C137 allocator in a buffer** — `BufAlloc.lean` models runtimeAlloc.h:161-193 (and 80-93 with a throwing constructor) with 64-bit arithmetic; the state also has the list of blocks of the program. `C137_blocks_partial`: for all histories blocks are in the buffer and no byte belongs to two of them; `C137_refuse_partial`: exactly when a request is refused; `C137_nested`: histories giving blocks back in the opposite order leave the allocator unchanged (inductive predicate `Nested`); `C137_aligned_partial`.
* **C138 memory with room inside** — `SmallMem.lean` models smallAlloc.h:38-142; blocks have a maker and a size, pointers into the buffer name the object. `C138_blocks_partial`: for all histories that keep `rule` nothing undefined happens and every block has exactly one holder; `C138_no_leak_partial`, `C138_room_partial` (reported size = room), `C138_request`, `C138_grow_partial` (the calls of `AutoArray::addExtra` and `freeExtra`, autoArray.tcc:38-50, as a history). Simplified: allocation does not fail.
* **C139 text of a decimal number** — `StrToD.lean` models `strtod` function by function with the rest of the text as position; the number stays an integer and a decimal exponent (rounding of doubles is not modelled, only that powers above 10^308 are infinite). The specification is a grammar record (`Num`) with its value in ℚ; the digits are followed by induction over both groups of nine, and every text is split into a number and a rest or has no number at its start.
* **C140 distributor of messages** — `Distrib.lean` is a machine with a stack of waiting calls: whoever runs (the program or the listener called last) does any operation, returns or throws. Both linked lists carry a flag for a wrong last pointer. The invariant splits the listeners at the position of every pending message into those that have it and those that have not; pending stages always belong to waiting calls. One thread.
* **C141 file paths** — `FilePath.lean` models `FilePathT`, its remembered position and the chains of `operator/` over any configuration. The specification splits texts at separators and walks a tree of directories. Chains without `parent` by induction with `split` of a joined text; chains with `parent` by induction with the number of parents still to skip as a parameter. Not modelled: the conversion of narrow texts, and the life time of references inside a chain.
* **C142 formatter** — `TextFmt.lean` models `TextFormat`: the arguments (`ParamItem` as a reference or an end in the shared buffer), the limit of thirty, `output` with the loop over the pattern, `parseFormatInfo` and the writing of numbers (textFormat.tcc:78-498). `C142_arguments` (every argument keeps its text whatever is added later), `C142_limit`, `C142_output` (a pattern written from parts gives the parts with the arguments), `C142_width`, `C142_empty_partial`. Violations: `C142_empty_violated`, `C142_adjacent_violated`, `C142_conditional_violated`, `C142_wide_violated`, `C142_number_violated`. Not modelled: floating point numbers, `sciFormat`, which the constructor with an allocator leaves without a value.
* **C144 Optional** — `OptVal.lean` models the buffer, the flag and the lifetimes of the objects in it (undefined behaviour is a separate outcome); the values may contain objects of their own kind, so references may point into a value. Proved: every operation under the rules of use, with or without a throwing constructor, against an `Option` per variable (`C144_step_partial`, `C144_read`), and whole programs (`C144_program_partial`). Not modelled: construction by a `Constructor` object, the move assignment from an `Optional` (it calls `constuct`, which does not exist).
* **C143 patterns of the text parser** — `TextPat.lean` models textParser.tcc command by command (skipping, sets, fields, quoted parts, branches, numbers) with undefined reads, endless loops and exceptions as outcomes; `TextPatProps.lean` proves against a separate grammar that plain characters, white space, fields, numbers and names read exactly their texts (`C143_match`, `C143_fields`, `C143_number`, `C143_name`, `C143_quoted`, `C143_commands`), that more fuel changes nothing (`C143_fuel`), and refutes the rest with concrete patterns. Not modelled: custom field parsers (they are always called with `nextTry` false) and `Result::operator T`. `TextPatJump.lean` adds the jumps over fields and nested alternatives (`C143_jump_partial`, `C143_nested`), searched lists (`C143_searched`) and the limits of numbers with a fraction (`C143_point`, `C143_room`). `TextPatRange.lean` adds the short ranges, the explicit star and the fields that are not kept (`C143_short`, `C143_explicit`, `C143_dropped`). Single constructs for all texts around them (the last `%`, signs, lists of one character, branches, ranges, fields) are in `TextPatCases.lean`.
* **C145 waiting for descriptors** — `FdSelect.lean` models LinuxFdSelect with the two arrays, the index and the wake-up pipe; the answers of `poll` are given from outside. `FdSelectProps.lean` speaks of registered descriptors (`Reg`) and of those with something to tell (`Unseen`): the registry with its moves of the last entry (`C145_registry`), `poll` (`C145_poll`), one call (`C145_next_partial`), all calls until the next waiting (`C145_all_partial`), `dropAll`, the time of waiting (`C145_time`, `C145_event`), wake-ups when the place of the search is the one of the pipe (`C145_wake_partial`, `C145_once`).
* **C146 queue executor** — `QueueExec.lean` models QueueExecutor as a transition system: each thread has a place in `serve`, the semaphore hands its permit to the first waiting thread and keeps at most one, `runningMessages--` is a load and a store. `QueueExecProps.lean` proves by an invariant over all reachable states: order and single start (`C146_order`, `C146_started`), no action is left while all threads wait (`C146_served_partial`), after `finish` all threads leave in boundedly many steps (`C146_stop`, `C146_ends`, `C146_finish`), the gate (`C146_gate`, `C146_join_partial`), `isRunning` with one thread (`C146_running_partial`).
* **C147 thread variables** — `Tls.lean` models TLSTable, ThreadVar and TLSAllocator; what the destructor of a value does with the table is an arbitrary list of actions, run with fuel, the moving of the array is counted to see writes into the old one. `TlsProps.lean`: map semantics (`C147_plain`, `C147_set_partial`), every registered value is in the table or deleted, once (`C147_once`), `clear` (`C147_clear`, `C147_end`: terminates for destructors that use smaller indexes only), `C147_access`, `C147_refused`, indexes (`C147_index`).
* **C148 one-shot waiting** — `Epoll.lean` models EPollSelect with the table of descriptors, the heap of timeouts exchange by exchange with the references of the owners, and the kernel (asked events, usable descriptors) with its answers given from outside. `EpollProps.lean` proves by an invariant over all histories (`refs_run`: every place of the heap is named by its owner) what a registration does (`C148_set_partial`), what is told (`C148_told`, `C148_untold`, `C148_flags`, `C148_wake`), timeouts while the heap is in order (`C148_due_partial`) and `C148_cancel`. Simplified: pointers into the heap are indexes, as if the array never moved.
* **C149 observers of sockets** — `NetListen.lean` models LinuxNetworkEventListener (requests, `updateFdData`, one turn of the worker) over the model of C148, with the records of the descriptors as allocated memory. An invariant over all runs (record of a descriptor is allocated, belongs to it alone, asked events = union of the masks, time = the earliest; idle descriptors have no record, no time) gives: a request replaces, adds or removes exactly the listener of its observer (`C149_request_partial`, `C149_sockets_partial`); an event calls exactly those who asked for it or whose time is over, once, and the others wait on (`C149_event_partial`, `C149_quiet_partial`); `C149_armed_partial`, `C149_idle_partial`, `C149_memory_partial`. Restricted to descriptors that stay open and are at most 1024. Not modelled: starting and ending the worker, the cleaning at its end, the passing of messages.
* **C150 messages for another thread** — `Apc.lean` models AbstractAPCServer step by step for any number of threads (one step = one access to the queue or a link). An invariant over all interleavings gives what is left of the claim (`C150_first_partial`, `C150_empty_partial`) and its negation for all other cases: no message ever runs, at most one call of `execute` returns, the loops of `executeQueue` and of the destructor never end once a message is queued.
* **C151 block and limited operations of iterators** — `Verif/IterOps.lean` has the default operations of base/iter/iterator.h (blockRead, copy, copyAccepted, blockCopy, blockWrite) over sources with items that cannot be read and targets with room, and the limiter of limiter.h. `C151_read`, `C151_readall`, `C151_readbad`, `C151_copy`, `C151_accepted`, `C151_write` give each result in closed form by induction over the source; `C151_blockcopy_partial` says the same of copying through a buffer except for its result; `C151_limit`, `C151_remain`, `C151_throws`, `C151_limcopy`, `C151_limaccepted`, `C151_limwrite` are the limiter. Not modelled: the block operations of the limiter, which do not compile when used.
* **C152 locks held by scopes** — `Verif/Scopes.lean` runs programs of nested scopes of `Synchronized`, its copies, `SyncReleased` and `TrySynchronized` for a recursive and a plain lock, with exceptions, waiting for ever and undefined behaviour as ends. By induction over programs: `C152_balanced_partial` (the lock is held as often as before, also after exceptions), `C152_held` (held in the scope), `C152_gone_partial` (not held where released), `C152_recursive` and `C152_flat` (which programs end), `C152_nested`, `C152_try`.
* **C153 flushing before reading** — `Verif/Autoflush.lean` has the writer, the reader and the dirty flag of base/streams/autoflush.h over a buffer; histories of operations, undefined behaviour as `none`. The invariant "what is in the buffer is known to the flag" gives `C153_flushed_partial`; `C153_order` (nothing lost or swapped), `C153_line`, `C153_buffered`, `C153_once`, `C153_alone`, `C153_settings` are by induction over histories. The buffer behind the writer is assumed to empty itself only when flushed.
* **C154 generators** — `Verif/Generator.lean` has the iterator, its fiber as a list of blocks still to be written, and the reader. `C154_order_partial` (a sublist, in order, for every history, by an invariant), `C154_has_partial`, `C154_again`, `C154_end`, `C154_kept`, `C154_new`; `C154_half_violated` gives exactly what the usual loop reads. Not modelled: the destructor, functions that throw.
* **C155 variants** — `Verif/Variant.lean` has values, references and the empty variant with the memory of variables; undefined behaviour is a result. `C155_value`, `C155_ref`, `C155_ptr`, `C155_convert`, `C155_eq` (against what a variant stands for), `C155_eqvalue_partial`, `C155_isolate_partial`. Not modelled: references to bases of polymorphic objects, sharing of the data (C47).
* **C156 several locks at once** — `Verif/MultiLock.lean` has the orders of locking of MultiLock2 and MultiLock3, unlocking, trying, and any number of threads with any sequences of multilocks, interleaved step by step. `C156_order`, `C156_order_three`: ascending, each lock once. `C156_progress_partial` (invariant: what a thread holds and wants is ascending; then the greatest wanted lock is free or its holder can go on), `C156_free_partial`, for MultiLock2 with different locks; `C156_excl` for all. Simplified: the header is not valid C++ and is read as meant, with references as lock types.
* **C157 maps with automatic numbers** — `Verif/IndexMap.lean` has IndexMap and IndexMapLazyErase with numbers below 2^64, over a map that is a function (the tree is another property). `C157_unused_partial`, `C157_different_partial` by induction over any sequence of calls, without replace and below the greatest number; `C157_add`, `C157_kept`, `C157_lazy`, `C157_again`, `C157_absent` for all states.
* **C158 numbers of several bytes** — `Verif/Multibyte.lean` has MultibyteOrder::Value, BytesToMultibyte and MultibyteToBytes for numbers of any number of bytes on machines of both orders. `C158_read`, `C158_write_partial`, `C158_roundtrip_partial` (any sequence of numbers, between any machines), by induction over bytes and numbers; `C158_refuse`, `C158_anew`, `C158_cur`. Partial because MultibyteToBytes::input does not compile as it is and is read as meant.
* **C159 arrays in a block of fixed size** — `Verif/InBlock.lean` has InBlockAlloc and the calls of AutoArray that change its end, with sizes in bytes and a write outside of the block as a separate result. `C159_add_partial`, `C159_resize`, `C159_reserve`: exactly what happens; `C159_inside_partial`: any sequence of calls, by induction; `C159_table`: the tables of thread variables, the assumption of C147.
* **C160 counting iterators** — `Verif/Counters.lean` has CountIterator and CountWriteIterator over the sources and targets of C151, with counters below 2^64. `C160_items`, `C160_same`: nothing of what is read changes; `C160_count_partial`, `C160_written_partial`: the counter, by induction over any calls whose blocks need not be full.

## Disagreements

Each entry is a place where the source does something else than the property says; the negation is
proved (theorem `..._violated`) on the model.

* **C05** `base32`: without padding the last partial character cannot be read back.
* **C06** `base16`: the default decoder reads table cells that were never written for lower-case digits.
* **C07** `base85`: inputs whose length is a multiple of four, and the empty input, are not restored as written.
* **C09** `utf.cpp`: the thresholds are off by one, U+07FF and U+FFFF get a longer form than the standard one.
* **C10** limits `maxBits` < 9 (`lzw.tcc:18-25`): `maxChainCode` is below 258 (or wraps to 65533 for 0 and 1), the dictionary is never cleared before the 16 bit codes overflow. The theorem covers `maxBits >= 9`.
* **C11** `lzw.tcc:104-123` `flush` resets the dictionary of the compressor, but the end code (`lzw.tcc:170-176`) keeps dictionary and code width of the decompressor and sets `prevCode=null`, which is 0 and not the null code: segments `ab`, `cdcd` decompress to `abcdab`. `padzeroes` writes a byte also when no bits wait; after the end code the decompressor reads it as the beginning of the next segment.
* **C12** `iterConv.h` block read: after `hasItems` (which may read the last item of the source) a block
  read longer than what waits in the converter reads the empty source and throws, the items are lost.
* **C12** `iterConv.h` block write stops at the end of a logical block (`eolb`), single writes go on.
* **C16** `heap.tcc`: `pop(at)` of an inner item can break the heap order.
* **C17** `priorityQueue`: `pop` leaves exactly one item in the container, whatever its length was.
* **C21** `avltreenode.h`: `AvlTreeBasic::remove(iter)` counts down only if the height of the tree is unchanged; `clear` does not reset the count.
* **C22** `BTree::Add` of an item which is already there stores it again when the item is the middle key of a full child: after `_SplitChild` the key is compared only with `less(item, median)` and the search goes on to the right of the equal key (btree.h:1071-1077). Order 2, items 1 to 5, then 4 again: `Add` returns true and `Size()` is 6.
* **C23** `BTree::Remove` goes wrong in four ways. (1) A rotation between leaves uses their null `_subtree` arrays (btree.h:1202, 1215), also when the key is absent: items 1 to 4, order 2, removal of 1 or of 0. (2) A key of an inner node is to be replaced by its successor, but `move(p->_item, p->_item+index)` (985) writes into the leaf, so the key stays and the successor is lost: items 1 to 5, removal of 2. (3) A rotation to the right writes the key to `node->_item[0]` instead of `[index]` (1204). (4) `updSubtree` (1033) does not count down the root when it became empty: `Size()` is 1 for the empty tree.
* **C24** `insert(at, x, 0)` and `insertArray(at, empty)` in front of an item copy each later item over itself and destroy it.
* **C24** `erase(at, count)`: `at + count` wraps, so `erase(1, naturalNull)` destroys objects outside of the block; `add(x, count)` wraps likewise.
* **C24** `a.add(a[i])` on a full block reads released memory; `a.insert(k, a[i])` with `i ≥ k` copies raw memory or another item; `a.append(a)` runs into released memory; `a = a` empties the array.
* **C25** arraySet.tcc:24,36: for an item found in the unordered part `find` returns a pointer to the item at the insertion position of the ordered part (`C25_find_item_violated`). 95-98, 356: duplicates are never removed, since `removeDuplicatesAfterOrder` returns at once (`C25_duplicates_violated`). 274-281: `insert` of several items sets `orderedCount = at` even above the ordered part (`C25_insert_violated`). 290-294: `erase(at, count)` erases one item (`C25_erase_count_violated`), a huge or a zero count breaks the ordered part (`C25_erase_violated`, `C25_erase_zero_violated`). `resize` is not overridden (`C25_resize_violated`). 344-352: `checkOrder` reads outside of an empty array and never reports a whole array as ordered (`C25_detect_violated`).
* **C26** linkedList.h:108-111: the copy constructor uses `insertFirst`, so a copy is in reverse order (`C26_copy_violated`). 126-131: assigning a list to itself empties it (`C26_assign_self_violated`). 251-258: `remove` does not update `last`; after `erase` of the last item `add` and `getLast` use a released node (`C26_erase_last_violated`), after `remove` the next item added is lost (`C26_remove_last_violated`). Iterators returned by `add` and `insert…` have no predecessor, so `erase` through them erases the first item (`C26_returned_iterator_violated`). `erase` at the end dereferences null (`C26_erase_end_violated`). 279-283: const `getLast` returns the first item (`C26_const_last_violated`).
* **C27** buffer.h:419 `wrpos -= x` should be `wrpos = x`: when the device takes only a part of the block that `write` flushes, the remaining items are dropped or overwritten (`c27_violated`: 1..5 written, device gets 1,2,5).
* **C28** buffer.h:471 `peek(n)` returns `buffArr.at(n)` and not `rdpos + n`, so it shows items already read (`c28_peekAt_violated`); with fewer than `n+1` items left it loops for ever (`c28_peekAt_hangs_violated`). A device which ends without `IteratorNoMoreItems` (`SeqFileInput::blockRead`) makes `getNext` return stale cells (`c28_quiet_end_violated`).
* **C32** `spinlock`: `steal` can be done twice.
* **C34** `rwlock`: `qbot` is never reset; cancelling leaves a dangling slot.
* **C35** `mutex`: `tryLock` on a never locked mutex then a recursive `lock`: released too early.  `lockAsync` writes `slot.threadId`, not `value.threadId`.
* **C36** `semaphore`: an expired timed `lock` leaves its destroyed slot in the queue (undefined behaviour on the next `unlock`); cancelling an immediate grant loses the permit.
* **C39** `slist`: two threads suffice for the ABA problem (16 pops inside of the window of another one).
* **C41** `releaseResultRef` only notifies the observers present at that time (promise.tcc:451-475, 570-575), the future does not become resolved; an observer registered later is never called and `wait` sleeps for ever (`c41_violated`). The documentation (promise.h:963-973) says that the promise is resolved with `CanceledException`.
* **C42** `msgQueue.cpp:122, 142`: `lockCompareExchangePtr(&newMessages,msg->next.get(),msg) != msg->next.get()` may read `msg->next` after the exchange, when the worker may already have changed or freed the message; the poster then posts it a second time.
* **C43** dispatcher.cpp:102-107: `getNextAction` detaches the pointer at the front of the queue but never pops it, so from then on every call returns null: the first action is the only one ever run (`C43_later_actions_violated`, `C43_violated`), and the queue is never empty again, so `dispatch` no longer wakes the thread.
* **C44** scheduler.cpp:29-35: `itm` is a reference to the first place of the array, used after `pop` and `trunc`: the promise of the second earliest event is resolved, or a destroyed one if there was a single event; the copy `p` is never used. dispatcher.cpp:53, scheduler.cpp:34: `onIdle` is called with the lock already released, releases and takes it again, and then `run` takes it a second time: the thread waits for itself (`C44_violated`).
* **C45** parallelExecutor.cpp:226: a worker which leaves because of `orderStop` or `canFinish` does not decrement `curThreadCount`, so after `stopAll` the executor believes that its workers still exist; the next `execute` has no worker, may not start one, and waits for ever (`C45_after_stop_violated`, `C45_stuck`).
* **C46** resourcePool.cpp:76-84: the limit is tested under the lock and decremented after the resource is created, outside of it; two callers may pass the test together and the pool has more resources than its limit (`C46_limit_violated`).
* **C47** refCntPtr.h:150-156: assignment takes no care of itself: `p = p` loses the pointer and leaks the object (`C47_self_violated`); in `p = p->next` the source is destroyed by the release before it is read (`C47_next_violated`). refCntPtr.h:254-257 and 272-277: `create` and `attach` on a pointer destroy the old object without a look at the counter (`C47_create_violated`).
* **C48** weakref.h:140-144: the user which decrements to zero calls the sleeper later; the target may have seen the zero, left `setNull` and ended its thread meanwhile (`C48_notify_violated`, contrary to the comment in 204-207). weakref.h:286-299: `WeakRefPtr` has no assignment operator; the implicit one copies the pointer and moves no lock (`C48_assign_violated`).
* **C49** sharedResource.h:86-92, 233-237: an object assigned to itself leaves its group although it still refers to the resource, so the resource is released twice (`C49_self_violated`, `C49_self_always`); derived classes have to use `makeAssign`.
* **C50** clusterAlloc.cpp:62: `AllocCluster::dealloc` passes the size before rounding to `makeDealloc`; the index is wrong and a block in use is handed out again (`C50_owner_violated`; `DynObject` rounds sizes itself and is not affected for sizes from 8). clusterAlloc.h:84-87: allocation through a cluster names itself as owner of a block of another cluster (`C50_via_violated`). Zero bytes: `objSize2bksize(0)` is 0, the constructor of `AllocMulticluster` divides by it (`C50_zero_violated`).
* **C52** `rational`: negative reducible results are not normalized.
* **C53** `rational`: `power` returns a repeated square of the base, not the product.
* **C54** `timestamp`: Unix time before the base of the day count.
* **C55** `timestamp`: `intervalMin` divides by 144 (a day has 1440 minutes), wrong from 144 minutes on.
* **C56** `datetime`: `PartsEx` swaps year and day; the first day of a month is misplaced.
* **C57** `ToStringSigned` (toString.h:84) and `numberToStringSigned` (textFormat.cpp:69) negate the least `integer`: undefined.
* **C59** `jsonparser.tcc:210`: `parseValue` peeks behind the first character, so a one digit number as the whole input throws.
* **C60** `jsonserializer.tcc:113`: code points above U+FFFF are written with five hexadecimal digits, no surrogates; `\u07FF` and `\uFFFF` are read as over-long UTF-8.
* **C61** binjson.cpp:88-90 writes `-v` for a positive number too, so 5 is stored as 2^64-5 and read back as -5 (`c61_positive_violated`, for every positive number). binjson.cpp:264-267 gives the opcode instead of its offset to `parseString`, so `readNumber` reads nothing: every string value outside of the table comes back empty and its length and text stay in the stream (`c61_string_violated`). `parseArray` (379-388) never takes `opcEnd` from the stream, so an array inside of an array or object ends the outer one too (`c61_nested_array_violated`, `c61_array_in_object_violated`).
* **C66** `rational`: `floor`/`ceil` of negative numbers.
* **C67** `datetime`: the 366th day counted from March before a leap year is skipped; day 0 reads outside of the month table.
* **C68**, **C69** `fastlock`: two holders after an address is reused; `Async` on a free lock never gets it.
* **C70** `syncPt`: a slot used again is never found uncharged.
* **C71** `gate`: a thread passes a closed gate when `open` and `close` of other threads overlap.
* **C72** `slist`: `take` puts the cookie back to that of the other list, so a `pop` in progress corrupts the list.
* **C73** `avltreenode.h`: the path stored by `insert` is that before a double rotation, the iterator then visits keys twice.
* **C74** `avltree.h`: `insert(node, exist)` tests `*exist`, not `exist`: null is dereferenced, a false flag is never set.
* **C75** `fileiobuff.tcc:162-165`: `peek` of zero bytes returns `rdpos - rdend`, the negative of the available count, as an unsigned number.
* **C77** `fileiobuff.tcc:83-85, 88-120`: when unread input fills the whole buffer from index 0, `getWriteSpace` still reports free space and a write overwrites the unread input; later the space computation wraps and a write leaves the buffer.
* **C77** `fileiobuff.tcc:288-313`: `putBack` does not check for pending output in front of the read position and overwrites it.
* **C78** `msgQueue.cpp:130, 146`: `queueLen` is increased after the message can be taken; `length()` can be -1 and `isRunning()` false while messages wait.
* **C79** `Ntf::resolve` in `wait` (promise.tcc:177-187) stores the result and then reads `thread` of the observer; the waiting thread may see the result, fail to unregister, and return in between; its observer is on its stack (`c79_violated`).
* **C80** `Promise` has no copy assignment (promise.h:976-1075); the implicit one copies `ptr` without `addResultRef`/`releaseResultRef`, so the counter of both futures is wrong: one is canceled while a promise exists, the other never (`c80_violated`).
* **C81** `ArrMid::empty` (arrayExpr.h:155-157) returns `len > 0`: sections of expressions which are not flat report the opposite.
* **C82** `ArrSum::forEach` (arrayExpr.h:98-106) passes `count - l` to the second summand instead of `count - (l - from)`; `ArrRep::forEach` takes a remainder by zero for an empty array.
* **C83** because of `ArrMid::empty`, `find(item,pos)` and all but the first candidate of `find(array)` fail in arrays which are not flat.
* **C84** `findLast(array)` (arrayt.h:556-560, 570-574) returns `length - p - 1`, the index of the last item of the occurrence, where `length - p - other.length` is its place; and it gives up after one candidate because the reversed array is not flat.
* **C85** `mid(pos, naturalNull)` and `crop` add their arguments without a check of overflow (arrayt.h:264, 270, 307, 312): the section reaches outside of the array.
* **C86** `split` of an array which is not flat gives one part with all separators.
* **C88** `RenderToArrFunctor` (arrayt.h:483-487) increments the index before it writes, stops after the first item and does not stop when the target is full.
* **C89** `md5_append` (md5.cpp:330-366) computes `nbytes << 3` in `int`: a piece of 2^28 bytes or more overflows (undefined). `sha1.cpp:254-264` shifts a byte ≥ 0x80 left by 24 in `int`; this is modelled as the sign extension which compilers give and which is the defined meaning since C++14 (CWG 1457).
* **C91** `HashMD5::flush` (md5iter.h:48) is `finish`, which appends the padding to the state: flushing twice changes the digest.
* **C92** `formatUnsigned` (textFormat.cpp:25-36) passes `size` on unchanged: with a buffer smaller than the text it writes behind the buffer.
* **C93** `parseUnsignedNumber` reduces modulo 2^64 without notice and converts wide characters to `char` first (U+0131 is the digit 1); `parseSignedNumber` negates -2^63; `stringToSignedNumber` accepts "-+5".
* **C95** `jsonparser.tcc:80-97`: surrogate pairs are read as two three-byte sequences; integers of 63 bits and more wrap (C93).
* **C97** `BTreeIterator::BeginFrom` with a key which is in an inner node goes down to a leaf and reads `p->_subtree[p->_keyCount]` there (btree.h:432), where `_subtree` is null. Items 1 to 4, order 2, key 2.
* **C98** schedulerOld.cpp:77-110: a message without a time counts as due "now", so its place in the already sorted queue becomes wrong as the clock advances; a later message can then run before an earlier one that is due (`C98_mixed_violated`).
* **C99** parallelExecutor.cpp:265-282: a worker which timed out decrements the counter and, if it then finds an action, goes on; meanwhile `execute` may have started another worker, so there is one more than the limit (`C99_limit_violated`; a comment in the code mentions it).
* **C100** resourcePool.cpp:138-146: `newLimit = limit` assigns the wrong way round, so the limit is never stored, and lowering subtracts `limit - curLimit` instead of `limit - newLimit`: lowering an unused pool does nothing, raising twice adds twice (`C100_lower_violated`, `C100_raise_violated`).
* **C101** resourcePool.cpp:158-162 and 80: a resource which is deleted at its return does not wake a waiter, nor does a failed creation after the deletion of an expired resource; a waiter may be left in a pool without any resource and with room to create one (`C101_stranded_violated`, `C101_throw_violated`).
* **C104** `QueryParser::preload` (queryParser.cpp:66) on an empty part calls itself and then goes on, storing an empty field over the one just loaded: in `?a=1&&b=2` field `b` is lost and an empty one given (`C104_violated`); an address without query has one (empty) field (`C104_empty_violated`). The missing `return` after the recursive call is also a recursion as deep as the run of `&`.
* **C105** `CmdLineIterator::peek` looks at the first character of an argument without testing that there is one (`C105_violated`; arguments taken from `argv` have a terminating zero there).
* **C107** `Random<integer>::transform` (random.h:75-78) does not add the lower limit, so for e.g. (10,20) no number is in the range (`C107_integer_violated`), and overflows a signed product for ranges above 2^31 (`C107_overflow_violated`); `Random<natural>` never gives numbers 2^32 or more above the lower limit (`C107_wide_violated`).
* **C108** `MemFile()` leaves `appendMode` without value (memfile.h:37; `C108_new_violated`); `pos + size` overflows for size = naturalNull and a negative length is copied (memfile.tcc:25-29; `C108_read_all_violated`); an append write adds its size to the old position (`C108_append_violated`); `closeOutput` does not stop writes (`C108_close_violated`); `MemFileStr::read`/`peek` wrap when the position is behind the end (`C108_text_violated`).
* **C109** copy constructor of `SortFilter` (sortFilter.tcc:68-72) makes a heap of size zero over a full buffer and drops the extra item: `1 2 3` come out of the copy as `3 3 3` (`C109_copy_violated`); assignment and `clear` keep the extra item of before (`C109_assign_violated`, `C109_clear_violated`); with a buffer that holds nothing `output` reads its first item (`C109_zero_violated`).
* **C110** pruning in LZWp (lzw.cpp:46, 135) computes the code width in two ways: when the items kept leave the next code at `2^v`, the compressor goes on with `v` bits and the decompressor with `v+1`. For every limit over nine bits, the default 12 included, there is a text which is not decompressed (`C110_violated`). With less than 32 items the decompressor reads behind its dictionary (modelled as no result).
* **C112** `TextIn::peekLine` (textIn.h:158-162) goes on behind a beginning of the newline sequence that does not continue without looking whether another one begins there: `a CR CR LF b` is one line (`C112_missed_violated`). A beginning at the end of the text is dropped: `a CR` gives `a` (`C112_lost_violated`).
* **C113** `TextInBuffer::Iterator::getNext` (textInBuffer.tcc:60) tests `avail < absp` where `peek` tests `<=`: behind the last character it reads outside of the buffer (`C113_end_violated`). An iterator whose place was committed away reads the first character of the buffer again at every call (`C113_stale_violated`).
* **C114** `MergeSortFn` (merge.h:334) calls `isLess(left,right)` before it looks whether `left` is null: when the left source ends first, the comparison gets a null pointer (`C114_null_violated`, `C114_violated`). The default `std::less<T>` is given pointers and does not compile; `commitL/R/B` (merge.h:74-76) give a reference to a constructor that takes a pointer.
* **C115** `parseNumber` (httpc.tcc:524-529) stops behind a small hexadecimal letter, and `ToString` writes small letters: a body of 416 bytes (`1a0`) is read back as 26 (`C115_size_violated`, `C115_violated`; exactly the sizes of `SizeOk` survive, `C115_sizes`). After the end of a chunked body `hasItems`, `getNext`, `peek` and `reset` do not return (`C115_again_violated`, `C115_reset_violated`), nor when the connection is cut between chunks (`C115_cut_violated`); of the trailer only one line is read (`C115_trailer_violated`); `HttpRequest::reset` keeps the buffer of an unsent body (`C115_stale_violated`); `flush` without `beginBody` sends chunks without announcing them (`C115_flush_violated`).
* **C116** `getNext` and `peek` do not look at `readLen` when the length is known: at the end of the body they take the first byte of the next message and `readLen` wraps to 2^64-1 (`C116_end_violated`, `C116_violated`). When the input ends early `hasItems` stays true though `getNext` throws (`C116_cut_violated`).
* **C117** Names of headers are compared with their letters: `transfer-encoding: chunked` is not seen (`C117_case_violated`, `C117_violated`). A status line without a blank behind the code gives a message of length 2^64-1 (`C117_reason_violated`). `open` on an ended input does not return (`C117_empty_violated`), a head cut short is taken for a whole one (`C117_cut_violated`). `sendHeaders` erases the name `Content-Length<TAB>`, so a length stays beside the announcement of chunks (`C117_length_violated`).
* **C118** `trim` (configParser.tcc:254-265) starts `end` at 0 and not at the position of the first character: a value of one character behind one blank is lost (`a= 8` gives nothing, `C118_one_violated`, `C118_violated`), behind two or more blanks the length is negative and the result reaches behind the string (`C118_two_violated`; exact condition `C118_trim`). A last line without its end loses the last character (`C118_last_violated`). `[]` ends the reading of the file (`C118_empty_violated`). Quotes behind a blank are kept, blanks inside of quotes are lost, `"1\\"` at the end of the file is accepted, `\\b` gives a carriage return (`C118_quotes_violated`, `C118_inner_violated`, `C118_open_violated`, `C118_escape_violated`). Errors before the first section are never ignored (`C118_ignore_violated`). Fields behind `.include` fall into the section "." (`C118_include_violated`). `isspace` gets negative characters (`C118_wild_violated`).
* **C120** the constructor of `IniConfigT::Iterator` (configParser.cpp:53-64) assigns `prefix` to its parameter and not to the member, so the prefix is ignored (`C120_violated`), and compares the section with its letters though the map does not: a section asked in other letters gives an empty list, a section written in two ways a part of it (`C120_case_violated`, `C120_mixed_violated`).
* **C121** `takeRightMost` (avltreenode.tcc:228-242) does not mark the nodes on its way as dirty, and `rotateDouble` (avltreenode.tcc:147-161) does not mark the middle node, which `removeBalance` takes from the other side: after `reduce`, an erasure leaves old results in these nodes and the next `reduce` counts an item twice (`C121_take_violated`, `C121_rotate_violated`, `C121_violated`).
* **C122** `add(IIterator &)` (stringpool.tcc:83) takes the length after writing the zero, so the string is one longer than its text (`C122_violated`); `WriteIterator::write` (stringpool.h:155) may move the block without setting `poolRef`, so strings handed out before read freed memory until `finish` (`C122_writer_violated`); `fromMark` after several `add` – the use its comment describes – has the zeros of the parts inside (`C122_fromMark_violated`).
* **C123** `WideToUtf8Filter` compares with `0x7ff` and `0xffff` by `<`: these two code points get one byte more than needed (`C123_violated`); `Utf8ToWideFilter::input` has no branch for 255 as a first byte and passes over it (`C123_reject_violated`).
* **C124** `SerializableString::serialize` (lightSpeedTypes.h:35-39) calls `arr.next()` in the condition of its loop and again in the body: the count is stored, but only the first half of the characters; loading runs into what follows (`C124_string_violated`). `openDynSection` of the reader uses an empty `dynSection` as "not loaded": when a section without a name is refused, its head is lost and the next try reads one again (`C124_null_violated`).
* **C125** `operator<=` of a string and a literal (constStr.h:228) is done with `>=`: whenever they differ, the answer is wrong (`C125_le_violated`). `StrCmpCI` uses `strncasecmp`, which ends at a zero: strings that differ behind a zero only are equal (`C125_ci_violated`). `cStr` of a wide string compares one byte of the character behind (`sizeof(char)`, linux/string.cpp:144): before a character like U+0100 it gives a string without an end (`C125_cStrW_violated`).
* **C127** lockPair.h:131-178: two threads that lock the same two locks, named in a different order, may alternate forever: each has one, finds the other one locked, gives back its own and takes the other one (`C127_livelock_violated`); nothing waits or yields between the halves.
* **C128** cmdLineIterator.cpp:87-91: `getRemainArgs` among short switches gives the whole argument again, with the switches read already (`C128_remain_violated`); 96: `getNextNumber` does not look whether the text ended, `12x` is 12 (`C128_number_violated`); 37: `a[0]` is read before the length is known (`C128_empty_violated`).
* **C129** list.h:128: `getRemain` counts from a variable without a value; 194: `getRemain(dir)` gives 2^64 - 1 minus the number (`C129_getRemain_violated`); 411: `oneItem` is true for an empty list (`C129_oneItem_violated`); 454-455: an erased item is linked with itself, so an iterator on it reads it forever (`C129_detached_violated`), and erasing it again makes `size` 2^64 - 1 and takes a reference of an iterator (`C129_erase_twice_violated`).
* **C130** iteratorFilter.tcc:131-134: `blockRead` after `peek` stores the item at `buffer[fetched]`, i.e. at place 1: it is overwritten and lost, and with an array of one item the write is behind the array (`C130_blockRead_peek_violated`, `C130_blockRead_one_violated`). iteratorFilter.tcc:143: the condition on `readAll` is inverted, and at the end of the source `output()` is called without an item (`C130_blockRead_all_violated`). iteratorFilter.tcc:159: `writeAll` is inverted for mutable items, right for const items (`C130_blockWrite_violated`). iteratorFilter.tcc:49-52: `hasItems` is wrong for filters that swallow items or give items at the end (`C130_hasItems_yes_violated`, `C130_hasItems_no_violated`). iteratorFilter.h:361-383: `TypeConversionFilter` does not forward `flush` (`C130_conv_violated`). iteratorFilter.h:425: `getRemain` forgets the fetched item (`C130_getRemain_violated`). iteratorFilter.h:204-205: an item without room is lost (`C130_room_violated`).
* **C131** iteratorFilter.tcc:49-52 with placeholders.h:66-69: `hasItems` says yes before a last variable with an empty value, and `getNext` throws (`C131_hasItems_violated`). placeholders.h:98-100: `flush` does nothing, a placeholder that is not closed is lost without an error (`C131_open_violated`). placeholders.h:141: `this->state` does not exist.
* **C132** base64.tcc:73-84: what is written through the encoder behind a `flush` is lost without an error (`C132_flush_violated`). base64.tcc:63-70: `calcToRead`/`calcToWrite` are exchanged, `getRemain` says 0 for three bytes (`C132_getRemain_violated`). base64.tcc:146-151: unpadded text of two left bytes loses both, a single left character gives two bytes (`C132_decode_unpadded_violated`). Text with a line end at its end: `hasItems` says yes and `getNext` throws (`C132_decode_hasItems_violated`). base64.tcc:103: a letter behind the padding shifts by a negative number (`C132_decode_after_padding_violated`). base64.h:214: `HexDecoder(hexchars)` starts at position 2 and gives a byte that was never set (`C132_hex_table_violated`); base64.h:293-297: an odd digit is joined with a digit of the byte before (`C132_hex_odd_violated`); base64.h:300-305: a character that is no digit reads an unset cell (`C132_hex_letter_violated`).
* **C133** urlencode.h:126-128: `UrlDecoder` with a single `%` at the end (or `flush` behind `%`) decodes the digits of an earlier character or bytes never set (`C133_percent_end_violated`, `C133_flush_violated`); `%4` at the end is lost without an error (`C133_digit_end_violated`); digits are not checked (`C133_digits_violated`). utf.h:101-107: `BytesToWide` drops a byte order mark inside the text, U+FFFE exchanges the order of the rest (`C133_bytesToWide_violated`); `hasItems` says yes before a mark at the end or a single last byte, which is lost (`C133_bytesToWide_hasItems_violated`). utf.h:130-139: characters above U+FFFF are cut (`C133_wideToBytes_violated`).
* **C134** stringBase.h:301-311: `createBuffer` of a `char` or `wchar_t` string keeps its local iterator while `data()` isolates the buffer, so the string gets a copy of one character less and without the terminating zero (`C134_createBuffer_violated`, `C134_createBuffer_end_violated`), and `createBuffer(0)` gives the length 2^64-1 (`C134_createBuffer_empty_violated`). stringBase.h:313-316: the same length is seen while a string is being filled (`C134_open_length_violated`); stringBase.h:160-162: isolating it then loses the rest of the text (`C134_open_isolate_violated`). stringBase.h:207-209: `write` of a character more than announced takes the place of the zero without an error (`C134_overfull_violated`). refCntPtr.h:150-156: `s = s` makes the string nil and leaks it (`C134_self_assign_violated`). A pointer from `data()` kept over a copy changes the copy (`C134_pointer_violated`). stringBase.h:80-83: the size of the memory overflows (`C134_size_violated`). Beside the model: memory/pointer.h:43-47 defines the null check only when LIGHTSPEED_NOCHECKPTR is defined, the opposite of its comment, so the conversion of a nil string to a constant string (stringBase.h:276-278, 318) dereferences null.
* **C135** poolalloc.h:32-57: when `operator new` throws, the reference taken by `lockInc(refs)` is not returned, so the pool never ends and its blocks are never freed (`C135_failed_alloc_leaks_violated`); the size of the failed request stays in `largestAlloc` and every later new block is as large (`C135_failed_size_stays_violated`). poolalloc.h:53-54: `largestAlloc` is tested and read again without a lock, so three threads can produce a block of 50 bytes for a request of 60 (`C135_race_small_block_violated`). poolalloc.h:57: the size with its header overflows 64 bits (`C135_size_overflow_violated`).
* **C136** ownedPointer.h:55-60: `OwnedPtr()`, `OwnedPtr(nil)` and `OwnedPtr(p, alloc)` do not set `owned`; the destructor and `<<=` read it (`C136_default_violated`, `C136_alloc_violated`). `clear` inherited from AllocPointer destroys the object also without ownership, its owner destroys it again (`C136_clear_violated`); `attach` to a pointer without ownership leaves the object without owner (`C136_attach_violated`). ownedPointer.h:113 and 131: a pointer whose object is gone keeps its allocator when a new object has the same address, and destroys it by the wrong allocator after `<<=` (`C136_address_violated`).
* **C137** runtimeAlloc.h:165: `used + objSize` overflows for sizes near 2^64; such a request succeeds, makes `used` smaller and later blocks lie over earlier ones (`C137_overflow_violated`). Blocks follow each other without alignment (`C137_align_violated`). runtimeAlloc.h:180: memory given back in another than the opposite order is never used again, whatever the program does later (`C137_lost_violated`).
* **C138** smallAlloc.h:66-68: `move` frees the memory of the target by `operator delete` although it came from the runtime allocator: an array with such an allocator that grows twice does this (`C138_grow_violated`). smallAlloc.h:89-91: the constructor without count leaves pointer and size unset (`C138_ctor_violated`). smallAlloc.h:127: `sizeof(T) * count` overflows (`C138_overflow_violated`). smallAlloc.h:74: the source of `move` loses its allocator, so later memory comes from the heap (`C138_allocator_violated`); `move` to itself gives the memory back (`C138_self_violated`).
* **C139** `stringToFloatNumber` converts the empty text (0) and "1e" (1); leading zeros count among the 18 digits, so 0.0000000000000000001 is 0; "0e400" is 0·∞ = NaN, "0e600" and "1e-600" throw, 123456789012345678e-320 (above 10^-303) is 0 because 10^320 is infinite; exponents that do not fit `int` overflow (undefined). The range exception also reports `maxExponent` for both the limit and the value, because `exp` is overwritten before (strtodouble.cpp:241-242).
* **C140** `LinkedList::remove` does not move `last`, so removing the last of two listeners and adding another writes to a freed item, and a listener that sends two messages in another stage puts the second behind an item that is gone (the message is lost or memory is overwritten); `exitMsgStage` is never set, so removing the next listener (or all) during the exit message leaves a dangling position; `getCurrent` reads a removed item after the current or the next listener was removed; the sender is not skipped and an exception stops only its own stage, against the description in distributor.h.
* **C141** `FilePathT::calcParents` removes the last part of a text whatever it is, so `base / ".." / parent` is `base`, `base / "a/" / parent` is `base/a`, and a stored `base / "a" / parent` (which ends with an empty part) does not go up with a further `parent`; `getFilename` of a path without a separator drops the first character; a file whose name ends with `..` has no name; a relative base gives an absolute result; the default constructor leaves `pathFileSep` without a value and `getPath` reads it; with the configuration for windows every text with a separator counts as absolute. The branch that writes `..` and the one for paths relative to a drive are never reached.
* **C142** a formatter without a pattern writes only the copied arguments, the referred ones are lost; in `%1%2` the second `%` is taken as the end of the first field, so `2` is written as a character; the condition `%{/reg-exp/text}N` of the description is not implemented; `parseFormatInfo` cuts wide characters to eight bits, so other characters are taken for digits and signs; the numbers of fields wrap at 2^64. The constructor with an allocator leaves `sciFormat` without a value (not modelled).
* **C143** a negated range in a set is compared wrongly, so it accepts the characters up to its upper limit and refuses those above (`C143_negated_violated`, `C143_range`); `[^*..` is not a search (`C143_search_violated`); the second branch is tried on what the first has left of the text (`C143_branch_violated`); skipping a field number of two digits never ends (`C143_skip_violated`); a quoted part without end is accepted (`C143_unterminated_violated`); an escape as the last character reads past the end of the pattern (`C143_escape_violated`); the limits of a searched list are not kept (`C143_ignored_violated`); the fields of two elements with the same number are not merged (`C143_merge_violated`); `%u` refuses a plus sign (`C143_plus_violated`); `%!` is not implemented (`C143_assert_violated`); the pattern of the ssh handler has `(*)` outside of a field, so every ssh address is refused (`C143_ssh_violated`); a list ends at the first `]` when it is read, but a jump takes `-]` as the end of a range (`C143_list_end_violated`).
* **C144** `optional = value` destroys the old value first and then copies; when the new value lies inside of the old one (`list = list->next`) the copy reads a destroyed object (`C144_inside_violated`; the test at optional.h:71 only covers the value itself). An assignment whose copy throws leaves the variable empty, the old value is lost (`C144_throw_violated`). The move assignment from an `Optional` (optional.h:143) calls the misspelt `constuct` and cannot be compiled.
* **C145** after a wake-up `getNext` clears the entry at `curPos`, though `peek` has not looked for the pipe: before the first waiting it is the place -1 (`C145_fresh_violated`, so in LinuxNetWaitingObj), otherwise another descriptor loses its event (`C145_lost_violated`); when `poll` has told the pipe already, it is told twice and the second reading of the empty pipe hangs (`C145_block_violated`); only the last reason is delivered although the documentation promises all (`C145_reason_violated`); `enableWakeUp(false)` does not forget the closed descriptors, so they are closed again by the destructor and used when switched on again (`C145_close_violated`); POLLERR is not translated, an error is told as a timeout (`C145_error_violated`).
* **C146** the constructor does not initialise `finishFlag` (`C146_uninit_violated`); the gate is closed at the start, so the destructor of an executor that no thread has served waits for ever (`C146_unused_violated`); the semaphore keeps one permit, so of two actions one may stay in the queue beside a waiting thread (`C146_parallel_violated`); `break` on `canFinish` leaves only the inner loop, so a cancelled thread waits in the semaphore (`C146_cancel_violated`); `runningMessages--` is outside the lock, a subtraction is lost and `isRunning` stays true (`C146_running_violated`).
* **C147** `setValue` loses the new object when the table refuses it (`C147_leak_violated`; `init` handles it); a new variable gets the index of a removed one and shows its value (`C147_reuse_violated`); `TLSRecord::set` writes after the delete function, which may have moved the array (`C147_stale_violated`) or set the record again (`C147_lost_violated`); `clear` is endless when a destructor sets its own variable (`C147_endless_violated`); `moveTo` deletes the values that it has handed over (`C147_move_violated`).
* **C148** removing a timeout from the middle of the heap leaves it out of order, so a time that is over is not told until a later one (`C148_order_violated`); a descriptor that was told keeps a reference to a place of the heap, and registering it again removes the timeout of another (`C148_stolen_violated`); the wait is rounded down to milliseconds, and when it ends before the limit of `wait`, any descriptor is told as timed out (`C148_early_violated`) or the top of an empty heap is read (`C148_empty_violated`, `C148_idle_violated`); descriptors above 1024 are refused until the table is big enough (`C148_high_violated`); a hang-up alone is told as a timeout (`C148_hup_violated`); a registration that the kernel refuses is recorded all the same (`C148_failed_violated`); PollSelect uses the codes of SIGPOLL in place of the bits of poll, so waiting for output never ends (`C148_poll_violated`).
* **C149** a request for a descriptor that `epoll_ctl` refuses leaves its number with the record that is then deleted (networkEventListener.cpp:99-118 with epollSelect.cpp:70-100): the next request or the end of the time uses released memory (`C149_dangling_violated`, `C149_expired_violated`); when a descriptor is closed while it is waited for, the end of its time erases the listeners, `unset` throws, and no one is called (`C149_lost_violated`); cancelling then leaks the record (`C149_leak_violated`); a hang-up alone, or an error when only input or output is waited for, calls no one and the descriptor is asked for again at once, so the worker spins (`C149_hup_violated`, `C149_error_violated`); after reuse of a number the old observer is called for the new connection (`C149_stale_violated`); high descriptors are refused, after the lower ones of the same resource were registered (`C149_high_violated`).
* **C150** `getNext` returns its argument instead of `nextAPC` (apc.h:72), so `executeOne` never finds the end of the list and no message is ever run (`C150_never_violated`, `C150_runs_violated`), and the destructor rejects the same message for ever (`C150_destroy_violated`); `execute` goes on while the exchange gives a non-null value and does not load it again (apc.h:93-96), so it does not return when a message is already queued (`C150_second_violated`, `C150_returns_violated`) or when another thread was faster (`C150_race_violated`).
* **C151** blockCopy never increases its counter and always returns zero (`C151_zero_violated`, iterator.h:547-556); items read into its buffer that the target has no room for are lost (`C151_lost_violated`); the offset of a limiter moves the argument that hides the member, so with a copied iterator nothing is skipped (`C151_offset_violated`, limiter.h:15-20); a limiter that is used up still says that it accepts items (`C151_accept_violated`, limiter.h:72-74).
* **C152** `TrySynchronized` first locks with its base class, waiting, and then calls tryLock once more: with a plain lock it always throws, with a recursive one the lock is never free again (`C152_try_violated`, trysynchronized.h:55-58); `SyncReleased` of a recursive lock held twice leaves it held (`C152_released_violated`), of one not held leaves it held behind the scope (`C152_unheld_violated`).
* **C153** `skip` of the writer writes without marking the output dirty (`C153_skip_violated`, autoflush.h:125); `setDirtyFlagAddr(0)` stores NULL, the next use is undefined behaviour (`C153_null_violated`, autoflush.h:45-48); setting another flag forgets that the output is dirty (`C153_place_violated`); `flush` and the flush character leave the flag set, so the next read flushes again (`C153_again_violated`).
* **C154** `getNext` and `peek` call prepareNext when an item IS there (generator.tcc:69, 78: `||` for what should be `&&`), so the usual loop reads every second item and throws when the number is odd (`C154_half_violated`, `C154_drop_violated`, `C154_first_violated`); without hasItems before it getNext throws (`C154_ask_violated`); after an empty block hasItems says yes (`C154_empty_violated`); blockWrite subtracts the wrong way round (`C154_count_violated`, generator.tcc:131).
* **C155** `operator==(const T &)` and isType throw the null pointer exception for an empty variant (`C155_null_violated`, variant.h:223-253); throwIt does not test for NULL (`C155_throw_violated`, variant.cpp:47-49); isolate copies the reference, not the variable (`C155_isolate_violated`, variant.h:188).
* **C156** MultiLock3::unlock and tryLock are empty, so its locks are never freed (`C156_three_violated`, multilock.h:127-134); MultiLock2::tryLock has no return after success (`C156_try_violated`, 71-79); with the same lock twice a thread waits for itself (`C156_same_violated`). The header does not compile: `byter` (18), the base class without arguments (40), the unqualified lk1 (85); lock types that are not references would dangle (26, 40).
* **C157** replace and operator() inherited from Map put objects under numbers that are not counted, so the next number is used and the next insert is lost (`C157_replace_violated`, indexMap.h:33, map.h:225-258); after the greatest number the next one is 0 (`C157_wrap_violated`, indexMap.h:35); find of a map that is not constant does not show the erased object, though the comment says so (`C157_lazy_violated`, indexMap.h:58-65); clear keeps it (`C157_clear_violated`).
* **C158** MultibyteToBytes::input passes two arguments to setValue, which has one, so it does not compile when used (multibyte.h:139); its output and base class have the types of items the wrong way round (130, 145). `C158_write_partial` and `C158_roundtrip_partial` are about what is meant.
* **C159** InBlockAlloc compares the number of items with bytes, so memory asked for 16 items of 8 bytes in 16 bytes has room for two (`C159_units_violated`, inBlockAlloc.h:34-48); add with a count near 2^64 wraps, passes the test and writes outside (`C159_wrap_violated`, autoArray.tcc:24-30, 92-99). A variable made after a thread started cannot be set in it (`C159_table`).
* **C160** when a block has to be full and cannot be, the items are transferred but not counted, because the exception goes by the counter (`C160_all_violated`, counters.h:41-45; `C160_writeall_violated`, counters.h:83-87, where this is the default).

Seen but outside of the models: `FastLock::unlock` and `MicroLock` wake a sleeper through a raw
pointer after the lock may have been given away, so the sleeper may be gone; `FastLockR::lock` when
`tryLock` fails; `IConverter::blockRead` forwards to `blockWrite`; `SList::empty` does not compile
when instantiated.
