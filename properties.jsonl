{"id": "C01", "title": "Compact number round trip", "statement": "Decompressing the bytes that CompressNumb::compress produces for any unsigned 64-bit value yields that value, reads exactly the bytes produced whatever follows them, and numberLength of the first byte announces that count; the signed variants round-trip every signed 64-bit value.", "quantifier": "for every 64-bit unsigned number", "why_tests_cant": "2^64 inputs and nine encoding widths with different offsets; tests sample boundary values only", "anchors": ["src/lightspeed/base/streams/compressNumb.h", "src/lightspeed/base/streams/compressNumb.cpp:CompressNumb::compress,decompress,numberLength,compressSigned,decompressSigned"]}
{"id": "C02", "title": "Compact number streams are self-delimiting", "statement": "Compressing any finite sequence of numbers one after another and decompressing the concatenated bytes returns the same sequence, with no separator or length information needed; no encoding is a prefix of another.", "quantifier": "for every finite sequence of 64-bit numbers", "why_tests_cant": "unbounded sequences; re-synchronisation depends on every possible boundary between encodings", "anchors": ["src/lightspeed/base/streams/compressNumb.cpp"]}
{"id": "C03", "title": "Compact encoding preserves order", "statement": "For two numbers a<b the compressed form of a is lexicographically (unsigned bytewise) smaller than the compressed form of b, so encoded keys can be compared as raw bytes; shorter encodings always mean smaller numbers.", "quantifier": "for every pair of 64-bit numbers", "why_tests_cant": "2^128 pairs, including pairs that straddle two encoding widths", "anchors": ["src/lightspeed/base/streams/compressNumb.cpp"]}
{"id": "C04", "title": "Base64 round trip", "statement": "Encoding any byte string with the Base64 encoder and decoding the resulting text with the Base64 decoder over the same alphabet returns the original bytes, both with and without padding.", "quantifier": "for every byte string and for both padding modes", "why_tests_cant": "unbounded strings; the three residue classes of the length take different code paths and partial groups are flushed separately", "anchors": ["src/lightspeed/utils/base64.h", "src/lightspeed/utils/base64.cpp:ByteToBase64Convert,Base64ToByteConvert", "src/lightspeed/base/iter/iterConv.h"]}
{"id": "C05", "title": "Base32 round trip", "statement": "Encoding any byte string with the Base32 encoder (with padding) and decoding it returns the original bytes; the same should hold when padding is disabled.", "quantifier": "for every byte string and both padding modes", "why_tests_cant": "unbounded strings, five residue classes of the length; the unpadded tail is only reached through an explicit flush", "anchors": ["src/lightspeed/utils/base32.h", "src/lightspeed/utils/base32.cpp"]}
{"id": "C06", "title": "Base16 round trip", "statement": "Hex-encoding any byte string and decoding it with the default decoder returns the original bytes; every output character is a hex digit of the chosen case and the text is exactly twice as long.", "quantifier": "for every byte string", "why_tests_cant": "unbounded strings; the decoder's look-up table is only partly initialised, so tests pass or fail by luck of memory contents", "anchors": ["src/lightspeed/utils/base16.h", "src/lightspeed/utils/base16.cpp"]}
{"id": "C07", "title": "Base85 round trip", "statement": "Encoding any byte string with the Base85 encoder and decoding it returns the original bytes, including strings whose length is not a multiple of four.", "quantifier": "for every byte string", "why_tests_cant": "unbounded strings; the tail group is padded and truncated, correctness of truncation is an arithmetic fact about all 32-bit groups", "anchors": ["src/lightspeed/utils/base85.h", "src/lightspeed/utils/base85.cpp"]}
{"id": "C08", "title": "URL encoding round trip and safety", "statement": "URL-encoding any byte string produces only letters, digits, '_', '-', and '%XX' triplets, and URL-decoding that text returns the original bytes.", "quantifier": "for every byte string", "why_tests_cant": "unbounded strings and all 256 byte values in every context, with the decoder's nested hex sub-decoder state", "anchors": ["src/lightspeed/utils/urlencode.h", "src/lightspeed/utils/urlencode.cpp"]}
{"id": "C09", "title": "UTF-8 round trip", "statement": "Converting any sequence of Unicode code points to UTF-8 and back returns the same sequence, and the encoder emits the standard UTF-8 form.", "quantifier": "for every sequence of code points up to U+10FFFF", "why_tests_cant": "1.1 million code points in unbounded sequences, thresholds at powers of two are off-by-one prone", "anchors": ["src/lightspeed/base/streams/utf.h", "src/lightspeed/base/streams/utf.cpp"]}
{"id": "C10", "title": "LZW round trip", "statement": "Compressing any byte string with the LZW compressor (then flushing) and decompressing the result returns the same byte string, for any permitted code-size limit, across dictionary growth, code-width changes and dictionary clears.", "quantifier": "for every byte string and every permitted maximum code width", "why_tests_cant": "dictionary evolution depends on the entire history; width switches occur at exact dictionary sizes on both sides", "anchors": ["src/lightspeed/utils/lzw.h", "src/lightspeed/utils/lzw.tcc", "src/lightspeed/utils/lzw.cpp"]}
{"id": "C11", "title": "LZW stream segmentation", "statement": "If the compressor is flushed several times within a stream, decompressing the concatenated output returns the concatenation of the written segments.", "quantifier": "for every sequence of written segments", "why_tests_cant": "unbounded histories with state carried over flush points", "anchors": ["src/lightspeed/utils/lzw.tcc:LZWCompress::flush,LZWDecompress"]}
{"id": "C12", "title": "Converter block operations are chunk-independent", "statement": "Pushing data through a converter by block writes, by single items, or pulling it through a read iterator, gives the same output for any way of splitting the input into blocks.", "quantifier": "for every converter, every input sequence and every division into chunks", "why_tests_cant": "unbounded inputs times exponentially many chunkings", "anchors": ["src/lightspeed/base/iter/iterConv.h:ConverterBase::writeToIter,flushToIter,hasItemsFromIter,blockWrite"]}
{"id": "C13", "title": "Deque behaves as a double-ended sequence", "statement": "Under any sequence of pushFront, pushBack, popFront, popBack, set, reserve, clear and swap, the deque's length, element access by index, getFront and getBack always agree with a mathematical sequence on which the same operations were performed; growth never loses, duplicates or reorders items.", "quantifier": "for every finite sequence of operations and every element type", "why_tests_cant": "ring-buffer wrap-around and growth interact in unboundedly many head/tail positions", "anchors": ["src/lightspeed/base/containers/deque.h", "src/lightspeed/base/containers/deque.tcc"]}
{"id": "C14", "title": "Queue is FIFO and Stack is LIFO", "statement": "Items leave a Queue in exactly the order in which they were pushed and leave a Stack in reverse order, each exactly once, under any interleaving of pushes and pops.", "quantifier": "for every finite sequence of push/pop", "why_tests_cant": "unbounded histories including internal growth in the middle of wrapped contents", "anchors": ["src/lightspeed/base/containers/queue.h", "src/lightspeed/base/containers/stack.h"]}
{"id": "C15", "title": "Heap sort sorts", "statement": "HeapSort::sort leaves the container holding a permutation of its original contents in non-decreasing order for any strict weak order.", "quantifier": "for every container content and every comparison that is a strict weak order", "why_tests_cant": "n! permutations for unbounded n, arbitrary user comparison", "anchors": ["src/lightspeed/base/containers/sort.h", "src/lightspeed/base/containers/sort.tcc"]}
{"id": "C16", "title": "Heap operations keep the maximum on top", "statement": "After any sequence of push and pop on a heap, top() is a maximal element of the items currently in the heap, and pop moves exactly that element out while keeping all others.", "quantifier": "for every sequence of heap operations", "why_tests_cant": "unbounded sizes and histories; the invariant is about every parent/child pair", "anchors": ["src/lightspeed/base/containers/sort.tcc:push,pop,shiftDown,makeHeap"]}
{"id": "C17", "title": "Priority queue pops exactly one item", "statement": "PriorityQueue::pop removes exactly the top item and leaves all the other items in the queue; after n pushes and n pops the queue is empty.", "quantifier": "for every sequence of push/pop", "why_tests_cant": "depends on queue size at the time of pop; a test with two items happens to pass", "anchors": ["src/lightspeed/base/containers/priorityQueue.h"]}
{"id": "C18", "title": "AVL tree is a sorted set", "statement": "Inserting and erasing keys in any order, find succeeds exactly for keys inserted and not erased since, and inserting an existing key leaves the tree unchanged and reports the existing node.", "quantifier": "for every sequence of inserts, erases and finds over any strict total order", "why_tests_cant": "rebalancing depends on the full history; number of tree shapes is exponential", "anchors": ["src/lightspeed/base/containers/avltreenode.h", "src/lightspeed/base/containers/avltreenode.tcc", "src/lightspeed/base/containers/avltree.h"]}
{"id": "C19", "title": "AVL tree stays balanced", "statement": "After any sequence of inserts and erases, in every node the heights of the two subtrees differ by at most one and the stored balance factor is exact, so the height is logarithmic in the number of items.", "quantifier": "for every sequence of inserts and erases", "why_tests_cant": "balance bookkeeping errors only surface in specific deep shapes", "anchors": ["src/lightspeed/base/containers/avltreenode.tcc:insertBalance,adjustBalance,removeBalance,balanceAfterRemove"]}
{"id": "C20", "title": "AVL iteration visits every key once in order", "statement": "Iterating a tree from the beginning visits every stored key exactly once in ascending order, and seeking to a key starts the iteration at the first key not less than it.", "quantifier": "for every tree reachable by inserts and erases and every seek key", "why_tests_cant": "path-stack iteration over unboundedly many shapes", "anchors": ["src/lightspeed/base/containers/avltreenode.tcc:Iterator", "src/lightspeed/base/containers/avltreenode.h"]}
{"id": "C21", "title": "AVL tree size is exact", "statement": "The tree's reported number of items equals the number of keys stored, after any operations including erase through an iterator and clear.", "quantifier": "for every history of operations", "why_tests_cant": "counter updates are spread over several entry points with separate conditions", "anchors": ["src/lightspeed/base/containers/avltree.h", "src/lightspeed/base/containers/avltreenode.h:AvlTreeBasic"]}
{"id": "C22", "title": "B-tree insertion, lookup and rank", "statement": "After any sequence of insertions the B-tree finds exactly the inserted items, the item of rank k is the k-th smallest, the rank of an item is the number of smaller items, and nodes stay within their fill limits.", "quantifier": "for every insertion sequence and every branching factor", "why_tests_cant": "node splits cascade; subtree counts are maintained incrementally", "anchors": ["src/lightspeed/base/containers/btree.h:Search,Add,_InsertNonFull,_SplitChild,ItemWithRank,RankOf"]}
{"id": "C23", "title": "B-tree removal", "statement": "Removing an item makes exactly that item disappear, keeps all others reachable and never dereferences a missing child.", "quantifier": "for every tree and every key", "why_tests_cant": "merge/rotate cases depend on fill of neighbours", "anchors": ["src/lightspeed/base/containers/btree.h:Remove"]}
{"id": "C24", "title": "Dynamic array editing", "statement": "insert, erase, resize, append and trunc on the dynamic array act as the corresponding edits on a sequence: no element outside the edited range changes, out-of-range requests are refused or clamped as documented and capacity growth preserves contents.", "quantifier": "for every content and every argument", "why_tests_cant": "unbounded contents and boundary arguments; reallocations in the middle of an edit", "anchors": ["src/lightspeed/base/containers/autoArray.h", "src/lightspeed/base/containers/autoArray.tcc"]}
{"id": "C25", "title": "Array-based ordered set", "statement": "Lookup in an array set finds an element if and only if an equivalent element was inserted, whatever mix of ordered and not-yet-ordered items it holds, and ordering removes duplicates.", "quantifier": "for every insertion history", "why_tests_cant": "two representations (ordered prefix and unordered tail) combined in unboundedly many ways", "anchors": ["src/lightspeed/base/containers/arraySet.h", "src/lightspeed/base/containers/arraySet.tcc"]}
{"id": "C26", "title": "Linked list keeps order under copy and removal", "statement": "A copied list has the same elements in the same order, and removing an element through an iterator followed by appending keeps all other elements reachable.", "quantifier": "for every list and every removed position", "why_tests_cant": "pointer bookkeeping at the ends; corruption shows only in later operations", "anchors": ["src/lightspeed/base/containers/linkedList.h"]}
{"id": "C27", "title": "Write buffer delivers bytes in order", "statement": "Bytes written through a buffered output stream reach the underlying device exactly once and in order, even if the device accepts only part of each block, and after flush nothing remains buffered.", "quantifier": "for every sequence of writes and every partial-acceptance behaviour of the device", "why_tests_cant": "device behaviour is adversarial: exponentially many partial write patterns", "anchors": ["src/lightspeed/base/containers/buffer.h:WriteBuffer"]}
{"id": "C28", "title": "Read buffer returns device bytes in order", "statement": "Bytes read through a buffered input stream are exactly the device's bytes in order, regardless of how the device splits its blocks, and peeking does not consume; bytes pushed back are returned next.", "quantifier": "for every device block pattern and every sequence of reads", "why_tests_cant": "adversarial device behaviour, unbounded streams", "anchors": ["src/lightspeed/base/containers/buffer.h:ReadBuffer"]}
{"id": "C29", "title": "Fast lock mutual exclusion", "statement": "At no point of any execution do two threads both hold the same FastLock.", "quantifier": "for every number of threads and every interleaving of the atomic steps", "why_tests_cant": "schedules are infinite in number; races need precise preemption points", "anchors": ["src/lightspeed/mt/fastlock.h:FastLock"]}
{"id": "C30", "title": "Fast lock hands over in arrival order without losing a waiter", "statement": "A thread that queued for a FastLock is granted the lock before any thread that queued later, and whenever the lock is released while threads are queued one of them becomes owner (no waiter is forgotten).", "quantifier": "for every number of threads and every interleaving", "why_tests_cant": "lost wake-ups need a specific race between enqueue and unlock", "anchors": ["src/lightspeed/mt/fastlock.h:FastLock::unlock,lockSlow"]}
{"id": "C31", "title": "Micro lock mutual exclusion and hand-off", "statement": "At most one scope object guarded by the same MicroLock is inside its critical section, and each release with waiters present passes ownership to exactly one waiting scope.", "quantifier": "for every number of threads and every interleaving", "why_tests_cant": "schedule-dependent", "anchors": ["src/lightspeed/mt/microlock.h"]}
{"id": "C32", "title": "Spin lock ownership", "statement": "A spin lock is held by at most one thread; only the holder's unlock releases it; taking the lock over (steal) from a dead owner succeeds for at most one thread.", "quantifier": "for every number of threads and every interleaving", "why_tests_cant": "schedule-dependent compare-then-write windows", "anchors": ["src/lightspeed/mt/spinlock.h"]}
{"id": "C33", "title": "Reader/writer lock safety", "statement": "A writer never holds the level lock together with any other holder, and all simultaneous holders share one level.", "quantifier": "for every number of threads, levels and every interleaving of operations", "why_tests_cant": "unbounded numbers of holders and queue contents", "anchors": ["src/lightspeed/mt/rwlock.h:LevelLock,RWLock"]}
{"id": "C34", "title": "Reader/writer lock availability", "statement": "Whenever no thread holds or waits for the lock, a lock request is granted immediately.", "quantifier": "for every history of lock and unlock calls", "why_tests_cant": "only appears after specific histories (contention that has ended)", "anchors": ["src/lightspeed/mt/rwlock.h:LevelLock::lock,unlock"]}
{"id": "C35", "title": "Mutex exclusion and recursion", "statement": "Only one thread owns a Mutex at a time; a thread that acquired it n times (by lock or tryLock) still owns it until it has unlocked n times.", "quantifier": "for every number of threads and every history of lock/tryLock/unlock", "why_tests_cant": "unbounded nesting and schedules", "anchors": ["src/lightspeed/mt/mutex.h", "src/lightspeed/mt/mutex.cpp"]}
{"id": "C36", "title": "Semaphore never over-grants nor loses permits", "statement": "The number of outstanding grants never exceeds the initial count, and permits are never lost: after all users release and all timed-out requests have given up, the whole count is available again.", "quantifier": "for every history of lock, timed lock, tryLock, unlock by any number of threads", "why_tests_cant": "requires specific timing of time-outs versus releases", "anchors": ["src/lightspeed/mt/semaphore.h"]}
{"id": "C37", "title": "Gate wake-up is never lost", "statement": "A thread waiting at a gate is released by any opening of the gate that happens after it started waiting, and a wait on an open gate returns immediately.", "quantifier": "for every number of threads and every interleaving of open, close and wait", "why_tests_cant": "the race between registering and opening needs exact preemption", "anchors": ["src/lightspeed/mt/gate.h", "src/lightspeed/mt/syncPt.h", "src/lightspeed/mt/syncPt.cpp"]}
{"id": "C38", "title": "Synchronisation point notifies each waiting slot once in the configured order", "statement": "Each slot added to a synchronisation point is notified at most once; notifyOne wakes the oldest slot in queue order and the newest in stack order; a removed slot is never notified; notifyAll wakes all.", "quantifier": "for every sequence of add, remove, notifyOne, notifyAll", "why_tests_cant": "unbounded histories of the waiting list", "anchors": ["src/lightspeed/mt/syncPt.h", "src/lightspeed/mt/syncPt.cpp"]}
{"id": "C39", "title": "Lock-free stack linearizability", "statement": "Concurrent push and pop on the lock-free list behave as some sequential order of the same operations on a stack: no node is lost or popped twice.", "quantifier": "for every number of threads and every interleaving", "why_tests_cant": "the ABA window needs many operations inside another thread's preemption", "anchors": ["src/lightspeed/mt/slist.h"]}
{"id": "C40", "title": "Promise resolves once and notifies every observer once", "statement": "A promise/future pair takes the value of the first resolution only; every observer registered before or after the resolution is called exactly once with that outcome; an unregistered observer is never called afterwards.", "quantifier": "for every interleaving of resolve, register, unregister by any number of threads", "why_tests_cant": "registration races with resolution; callbacks run outside the lock", "anchors": ["src/lightspeed/base/actions/promise.h", "src/lightspeed/base/actions/promise.tcc"]}
{"id": "C41", "title": "Abandoned promise releases its waiters", "statement": "If all promise references are dropped without resolving, every observer, whether registered before or after the drop, is notified of the failure.", "quantifier": "for every order of registration and drop", "why_tests_cant": "depends on the order of registration and last drop", "anchors": ["src/lightspeed/base/actions/promise.tcc:releaseResultRef,cancel,registerObserver"]}
{"id": "C42", "title": "Message queue delivers exactly once in order", "statement": "Messages posted to a message queue by any number of threads are delivered exactly once each, and messages posted by one thread are delivered in the order they were posted.", "quantifier": "for every number of producers, every interleaving with the consumer", "why_tests_cant": "lock-free; orderings are schedule-dependent", "anchors": ["src/lightspeed/base/actions/msgQueue.h", "src/lightspeed/base/actions/msgQueue.cpp"]}
{"id": "C43", "title": "Dispatcher runs every dispatched action", "statement": "Each action dispatched to a dispatcher is eventually executed exactly once, in order of dispatch.", "quantifier": "for every sequence of dispatches", "why_tests_cant": "depends on queue state at the time of each dispatch", "anchors": ["src/lightspeed/mt/dispatcher.h", "src/lightspeed/mt/dispatcher.cpp"]}
{"id": "C44", "title": "Scheduler fires the expired event", "statement": "When the scheduler's timer expires, it resolves exactly the event with the earliest due time and keeps all other events pending.", "quantifier": "for every set of scheduled events", "why_tests_cant": "depends on heap contents", "anchors": ["src/lightspeed/mt/scheduler.h", "src/lightspeed/mt/scheduler.cpp"]}
{"id": "C45", "title": "Parallel executor runs each accepted action exactly once and keeps accepting", "statement": "Every action accepted by the executor is run by exactly one worker; after all workers were stopped, a later execute still gets its action run.", "quantifier": "for every number of workers and histories of execute/stop", "why_tests_cant": "worker start/stop/hand-over races", "anchors": ["src/lightspeed/base/actions/parallelExecutor.h", "src/lightspeed/base/actions/parallelExecutor.cpp"]}
{"id": "C46", "title": "Resource pool limit", "statement": "The number of resources created by a pool and alive never exceeds its configured limit and each resource is lent to at most one holder.", "quantifier": "for every number of threads and every interleaving", "why_tests_cant": "check-then-act window", "anchors": ["src/lightspeed/base/containers/resourcePool.h", "src/lightspeed/base/containers/resourcePool.cpp"]}
{"id": "C47", "title": "Reference counted objects die exactly once", "statement": "An object managed by reference-counted pointers is destroyed exactly once, when the last pointer goes away, never while a pointer to it exists, under concurrent copies, assignments and releases.", "quantifier": "for every number of pointers, threads and interleavings", "why_tests_cant": "schedule-dependent; double destroy is timing-dependent", "anchors": ["src/lightspeed/base/memory/refCntPtr.h", "src/lightspeed/base/memory/refcounted.h"]}
{"id": "C48", "title": "Weak reference never outlives its target", "statement": "After the target withdraws itself from its weak references, no thread holds a usable locked pointer to it, and later locks give null.", "quantifier": "for every number of lockers and every interleaving", "why_tests_cant": "withdrawal races with locking", "anchors": ["src/lightspeed/base/memory/weakref.h"]}
{"id": "C49", "title": "Shared resource groups are exact", "statement": "For pointers sharing a resource: a pointer knows it is the last one exactly when it is, the sharing count is exact, and copying, assigning, merging and destroying pointers in any order keeps groups disjoint and intact, so the resource is released exactly once.", "quantifier": "for every history of copies, assignments, merges and destructions", "why_tests_cant": "ring pointer surgery over unbounded histories, including self-assignment", "anchors": ["src/lightspeed/base/memory/sharedResource.h"]}
{"id": "C50", "title": "Cluster allocator hands out disjoint blocks", "statement": "Blocks handed out and not yet returned never overlap and are at least as large as requested; returning a block makes exactly that block available again.", "quantifier": "for every sequence of allocations and releases", "why_tests_cant": "corruption depends on size classes and index of the freed block", "anchors": ["src/lightspeed/base/memory/clusterAlloc.h", "src/lightspeed/base/memory/clusterAlloc.cpp"]}
{"id": "C51", "title": "Greatest common divisor is correct", "statement": "rational::gcd returns the greatest common divisor for all pairs of naturals.", "quantifier": "for every pair of 64-bit naturals", "why_tests_cant": "2^128 input pairs, loop with shifts", "anchors": ["src/lightspeed/base/rational.h:gcd"]}
{"id": "C52", "title": "Rational arithmetic is exact and normalized", "statement": "If no intermediate product overflows, sums, differences, products and comparison of rationals equal the mathematical results and results are in lowest terms.", "quantifier": "for every pair of rationals with small enough terms", "why_tests_cant": "infinitely many pairs; sign handling mixes signed and unsigned arithmetic", "anchors": ["src/lightspeed/base/rational.h:operator+,operator-,operator*,_normalize,lessThan"]}
{"id": "C53", "title": "Rational power", "statement": "power(e) equals the mathematical e-th power for e>=0 when no overflow occurs.", "quantifier": "for every base and exponent", "why_tests_cant": "unbounded exponents, square-and-multiply loop", "anchors": ["src/lightspeed/base/rational.h:power,powerNumber"]}
{"id": "C54", "title": "Time stamp arithmetic", "statement": "Adding an interval to a time stamp and subtracting it again gives the original; time of day always stays within one day; comparison agrees with chronological order of (day, millisecond); Unix conversion round-trips.", "quantifier": "for every pair of time stamps in range", "why_tests_cant": "2^128 pairs; unsigned wrap-around in the borrow path", "anchors": ["src/lightspeed/base/timestamp.h"]}
{"id": "C55", "title": "Time interval constructors", "statement": "intervalMSec/Sec/Min/Hour/Day(n) denote exactly n of the named unit.", "quantifier": "for every n in range", "why_tests_cant": "values below one wrap-around period look right", "anchors": ["src/lightspeed/base/timestamp.h:intervalMin"]}
{"id": "C56", "title": "Calendar dates round trip and are canonical", "statement": "For every valid (year, month, day) the day number computed from it converts back to the same (year, month, day); consecutive dates have consecutive day numbers.", "quantifier": "for every valid Gregorian date", "why_tests_cant": "unbounded years; the four-level leap cycle", "anchors": ["src/lightspeed/base/datetime.h", "src/lightspeed/base/datetime.cpp"]}
{"id": "C57", "title": "Integer text conversion round trip", "statement": "Formatting any integer in base 2..36 and parsing the text in the same base returns the same integer.", "quantifier": "for every 64-bit integer and every base", "why_tests_cant": "2^64 values times 35 bases, minimum integer is special", "anchors": ["src/lightspeed/base/text/toString.h", "src/lightspeed/base/text/textParser.tcc:parseUnsignedNumber,parseSignedNumber", "src/lightspeed/base/text/textFormat.cpp"]}
{"id": "C58", "title": "JSON string round trip", "statement": "Serializing any byte string as JSON (UTF-8 passed through) and parsing the text returns the same bytes, consuming exactly the serialized characters.", "quantifier": "for every byte string", "why_tests_cant": "unbounded strings with escapes in every context", "anchors": ["src/lightspeed/utils/json/jsonserializer.tcc", "src/lightspeed/utils/json/jsonparser.tcc"]}
{"id": "C59", "title": "JSON document round trip", "statement": "Serializing any document of nulls, booleans, integers, strings, arrays and objects and parsing the text returns an equal document.", "quantifier": "for every finite document", "why_tests_cant": "recursive, unbounded depth and width", "anchors": ["src/lightspeed/utils/json/jsonserializer.tcc", "src/lightspeed/utils/json/jsonparser.tcc", "src/lightspeed/utils/json/json.cpp"]}
{"id": "C60", "title": "ASCII-only JSON round trip", "statement": "With UTF-8 escaping enabled the output is pure ASCII and parsing it returns the original string for every valid UTF-8 input.", "quantifier": "for every valid UTF-8 string", "why_tests_cant": "1.1 million code points; only those above the BMP misbehave", "anchors": ["src/lightspeed/utils/json/jsonserializer.tcc:serializeStringEscUTF", "src/lightspeed/utils/json/jsonparser.tcc:parseRawString"]}
{"id": "C61", "title": "Binary JSON round trip", "statement": "Writing any document in the binary format and reading it back returns an equal document.", "quantifier": "for every finite document", "why_tests_cant": "recursive documents", "anchors": ["src/lightspeed/utils/json/binjson.h", "src/lightspeed/utils/json/binjson.cpp"]}
{"id": "C62", "title": "CRC-32 is the standard CRC", "statement": "For every byte string the checksum equals the bitwise CRC-32 (reflected polynomial 0xEDB88320, initial value and final complement all ones), independently of how the data is split over calls.", "quantifier": "for every byte string and every division into blocks", "why_tests_cant": "unbounded strings; a wrong table entry affects only strings that hit it in the right state", "anchors": ["src/lightspeed/utils/crc32.h", "src/lightspeed/utils/crc32.cpp"]}
{"id": "C63", "title": "CRC-32 detects burst errors", "statement": "Two different byte strings of equal length whose difference lies within four consecutive bytes never have the same checksum.", "quantifier": "for every pair of strings differing within a 32-bit window", "why_tests_cant": "infinitely many pairs; an algebraic fact about the table", "anchors": ["src/lightspeed/utils/crc32.h", "src/lightspeed/utils/crc32.cpp"]}
{"id": "C64", "title": "Digest updates are chunk-independent", "statement": "Feeding a message to SHA-1 or MD5 in any number of pieces gives the same digest as feeding it at once.", "quantifier": "for every message and every division into pieces", "why_tests_cant": "exponentially many divisions; block buffer boundaries", "anchors": ["src/lightspeed/utils/impl/sha1.cpp", "src/lightspeed/utils/impl/md5.cpp"]}
{"id": "C65", "title": "Message ordering in the timed queue is a sorted merge", "statement": "Sorting the pending list by due time yields a permutation of the list in non-decreasing order of due time.", "quantifier": "for every list of pending messages", "why_tests_cant": "unbounded lists", "anchors": ["src/lightspeed/base/actions/schedulerOld.cpp:mergeSort,sortList"]}
{"id": "C66", "title": "Rational floor and ceiling", "statement": "floor() is the largest integer not above the number and ceil() the smallest integer not below it.", "quantifier": "for every rational with positive denominator", "why_tests_cant": "2^127 numbers; the sign path mixes signed and unsigned division", "anchors": ["src/lightspeed/base/rational.h:floor,ceil"]}
{"id": "C67", "title": "Day overflow in dates is adjusted", "statement": "dayNumber(y, m, d) equals dayNumber(y, m, 1) + d - 1 for every d, inside or outside of the month.", "quantifier": "for every year, month and day count", "why_tests_cant": "unbounded day counts; wrong only across leap years and in one month", "anchors": ["src/lightspeed/base/datetime.cpp:dayNumber"]}
{"id": "C68", "title": "Fast lock may be unlocked by another thread", "statement": "Mutual exclusion holds also when the section is left to another thread which unlocks (permitted by the comment of unlock).", "quantifier": "all interleavings, all slot addresses", "why_tests_cant": "needs a stack address to come again while it marks the owner", "anchors": ["src/lightspeed/mt/fastlock.h:FastLock::unlock,addToQueue"]}
{"id": "C69", "title": "Asynchronous acquisition gets the lock", "statement": "After an Async section ends the thread owns the lock; a free lock is acquired at once.", "quantifier": "all interleavings", "why_tests_cant": "a hang; depends on the lock being free at the moment of queueing", "anchors": ["src/lightspeed/mt/fastlock.h:FastLock::Async"]}
{"id": "C70", "title": "A notified slot can be used again after reset", "statement": "After a slot was notified and reset, add accepts it and it is notified by a later notify.", "quantifier": "for every history and order", "why_tests_cant": "the missing re-arming shows only as a waiter that is never registered", "anchors": ["src/lightspeed/mt/syncPt.h:Slot::reset", "src/lightspeed/mt/syncPt.cpp:SyncPt::add"]}
{"id": "C71", "title": "A closed gate stops threads", "statement": "A wait on a gate reports success only if the gate was open at some moment between the call and the return of the wait.", "quantifier": "For every number of threads, every interleaving of wait/open/close/timeouts.", "why_tests_cant": "Needs closing in the middle of an opening; scheduler rarely produces it.", "anchors": ["src/lightspeed/mt/gate.h:84-128"]}
{"id": "C72", "title": "Taking the whole lock-free list", "statement": "Taking the whole lock-free list atomically, concurrently with push and pop of other threads, behaves as a sequential order of the same operations: every node is handed out once per push.", "quantifier": "for every number of threads and every interleaving", "why_tests_cant": "needs a take and a push inside of another thread's pop", "anchors": ["src/lightspeed/mt/slist.h:154-156"]}
{"id": "C73", "title": "Iterator returned by AVL insert is a position in the tree", "statement": "Iterating from the iterator that insert returns visits the inserted (or existing) key and then exactly the greater keys in ascending order.", "quantifier": "for every tree reachable by inserts and erases and every inserted key", "why_tests_cant": "depends on which rotation the insertion causes at which depth", "anchors": ["src/lightspeed/base/containers/avltreenode.h:insert", "src/lightspeed/base/containers/avltree.h:insert"]}
{"id": "C74", "title": "AVL insert of a node reports an existing key", "statement": "insert(node, exist) sets the flag exactly if an equal key is in the tree, whatever the flag was, and may be called without a flag.", "quantifier": "for every tree, every key and every value of the flag before the call", "why_tests_cant": "the flag is usually initialized in the way that happens to work", "anchors": ["src/lightspeed/base/containers/avltree.h:insert"]}
{"id": "C75", "title": "IOBuffer reads the source in order", "statement": "For any buffer size and any chunking of the source, every sequence of read, peek, canRead, fetch, discardInput and putBack calls on an IOBuffer sees exactly the source's bytes in order, bytes put back come next, peeking consumes nothing, and an empty result means end of input.", "quantifier": "all buffer sizes, all source contents and chunkings, all finite sequences of reading calls", "why_tests_cant": "Buffer positions, refills and moves depend on sizes and chunking; the combinations of calls are unbounded.", "anchors": ["src/lightspeed/base/streams/fileiobuff.tcc:35-80", "src/lightspeed/base/streams/fileiobuff.tcc:123-184", "src/lightspeed/base/streams/fileiobuff.tcc:288-313"]}
{"id": "C76", "title": "IOBuffer writes once and in order", "statement": "For any buffer size and any target that takes parts of the blocks, the target receives the accepted bytes exactly once and in order; flush leaves nothing in the buffer; if the target closes itself it has got a prefix.", "quantifier": "all buffer sizes, all sequences of writes and flushes, all partial writes of the target", "why_tests_cant": "Partial writes and buffer wraps are unbounded.", "anchors": ["src/lightspeed/base/streams/fileiobuff.tcc:83-120", "src/lightspeed/base/streams/fileiobuff.tcc:233-263"]}
{"id": "C77", "title": "IOBuffer shares one memory for both directions", "statement": "With reads and writes interleaved, unread input and unsent output never damage each other, no access leaves the buffer, and all accepted output has been sent before the source is asked for more input.", "quantifier": "all buffer sizes, all mixed sequences of calls, all device behaviours", "why_tests_cant": "The damage needs particular relative positions of four pointers, reached only by particular call sequences.", "anchors": ["src/lightspeed/base/streams/fileiobuff.tcc:35-120", "src/lightspeed/base/streams/fileiobuff.tcc:123-156", "src/lightspeed/base/streams/fileiobuff.tcc:239-313"]}
{"id": "C78", "title": "Message queue counts its messages", "statement": "The length reported by the message queue equals the number of messages in it, and isRunning() is true whenever a message waits.", "quantifier": "all schedules of posters and worker, all times", "why_tests_cant": "The counter is updated apart from the list; wrong values need a switch between two instructions.", "anchors": ["src/lightspeed/base/actions/msgQueue.cpp:114-175", "src/lightspeed/base/actions/msgQueue.h:length,isRunning"]}
{"id": "C79", "title": "Observer of wait is not used after wait returned", "statement": "The observer object which Future::wait places on its stack is never accessed by another thread after wait has returned.", "quantifier": "for every interleaving of wait, resolve, cancel and timeouts by any number of threads", "why_tests_cant": "needs the waiter to return between two adjacent instructions of the notifying thread", "anchors": ["src/lightspeed/base/actions/promise.tcc:wait"]}
{"id": "C80", "title": "Future is canceled when its last promise is gone and only then", "statement": "A future is canceled exactly when the number of Promise objects referring to it falls to zero, whatever sequence of constructions, copies, assignments and destructions of Promise objects led there.", "quantifier": "for every sequence of operations on promise objects", "why_tests_cant": "depends on the history of copies and assignments", "anchors": ["src/lightspeed/base/actions/promise.h:Promise", "src/lightspeed/base/actions/promise.tcc:addResultRef,releaseResultRef"]}
{"id": "C81", "title": "Array expressions denote sequences", "statement": "A section, a reversal, a concatenation or a repetition of arrays has the length and the items of the sequence that it stands for, and empty() tells whether that sequence has no items.", "quantifier": "for all well-formed expressions of any depth and all indexes", "why_tests_cant": "Expressions nest without a bound; the combinations cannot be enumerated.", "anchors": ["src/lightspeed/base/containers/arrayExpr.h:59-271", "src/lightspeed/base/containers/flatArray.h:81-326"]}
{"id": "C82", "title": "forEach visits exactly the range", "statement": "forEach(functor, from, count) of an array expression applies the functor to the items from … from+count-1 in order and stops at the first item for which the functor returns true.", "quantifier": "for all well-formed expressions, ranges inside of them and functors", "why_tests_cant": "Faults need ranges which cross the border of summands or repetitions.", "anchors": ["src/lightspeed/base/containers/arrayExpr.h:98-106", "src/lightspeed/base/containers/arrayExpr.h:259-267", "src/lightspeed/base/containers/arrayt.h:695-699"]}
{"id": "C83", "title": "Searching from the front", "statement": "find and findOneOf return the first place, not before the start position, where the item, the sequence or one of the items stands, and naturalNull if there is none.", "quantifier": "for all arrays, items, sequences and positions", "why_tests_cant": "All alignments of candidates and partial matches cannot be tested.", "anchors": ["src/lightspeed/base/containers/arrayt.h:495-533"]}
{"id": "C84", "title": "Searching from the back", "statement": "findLast returns the last place where the item or the sequence stands, and naturalNull if there is none.", "quantifier": "for all arrays, items and sequences", "why_tests_cant": "The result depends on all later partial matches.", "anchors": ["src/lightspeed/base/containers/arrayt.h:541-574"]}
{"id": "C85", "title": "Sections of arrays", "statement": "mid, head, offset, tail, roffset, crop and trim give the part of the array that their arguments say, clipped to the array, for all arguments.", "quantifier": "for all arrays and all arguments of the type natural", "why_tests_cant": "Arguments near the limit of the type, such as naturalNull, are rarely tested.", "anchors": ["src/lightspeed/base/containers/arrayt.h:261-362"]}
{"id": "C86", "title": "split and join", "statement": "split gives parts without the separator; joined by the separator they are the array again.", "quantifier": "for all arrays and separators", "why_tests_cant": "Universal over all arrays.", "anchors": ["src/lightspeed/base/containers/arrayt.h:609-670"]}
{"id": "C87", "title": "compare is the lexicographic order", "statement": "compare of two array expressions says less, equal or greater exactly when the sequences are in that lexicographic relation.", "quantifier": "for all pairs of expressions", "why_tests_cant": "Universal over pairs of sequences of different lengths.", "anchors": ["src/lightspeed/base/containers/arrayt.h:706-739", "src/lightspeed/base/compare.h:16-25"]}
{"id": "C88", "title": "render writes a prefix", "statement": "render writes the items of the array to the target from its beginning while there is space and returns how many it wrote.", "quantifier": "for all arrays and targets", "why_tests_cant": "Universal over lengths of both.", "anchors": ["src/lightspeed/base/containers/arrayt.h:464-492", "src/lightspeed/base/containers/arrayt.h:591-603"]}
{"id": "C89", "title": "MD5 digest is the standard one", "statement": "After md5_init, md5_append of the pieces of a message and md5_finish the 16 bytes are the digest which RFC 1321 defines for the message, whatever the uninitialised buffer held.", "quantifier": "for every message and every division into pieces", "why_tests_cant": "64 steps on 32-bit words and a 64-bit length in two halves; carries of the length only occur after 512 MB", "anchors": ["src/lightspeed/utils/impl/md5.cpp:141", "src/lightspeed/utils/impl/md5.cpp:330", "src/lightspeed/utils/impl/md5.cpp:368"]}
{"id": "C90", "title": "SHA-1 digest is the standard one", "statement": "SHA1::update on the pieces of a message and SHA1::final return the 20 bytes which FIPS 180-4 defines for the message, although uint32 is a 64-bit type and the words are sign extended; afterwards the object is as new.", "quantifier": "for every message and every division into pieces", "why_tests_cant": "80 rounds on values with junk in the upper halves; unboundedly many messages", "anchors": ["src/lightspeed/utils/impl/sha1.cpp:37", "src/lightspeed/utils/impl/sha1.cpp:64", "src/lightspeed/utils/impl/sha1.cpp:139"]}
{"id": "C91", "title": "MD5 iterator", "statement": "After writing a message to HashMD5, finish() or flush(), any number of times, leaves digest() equal to the MD5 digest of the message and hexdigest() to its lower case hexadecimal notation.", "quantifier": "for every message, every division into writes and every number of flushes", "why_tests_cant": "flush is called by generic iterator code an unknown number of times", "anchors": ["src/lightspeed/utils/md5iter.h:43", "src/lightspeed/utils/md5iter.h:48", "src/lightspeed/utils/md5iter.h:55"]}
{"id": "C92", "title": "numberToString respects its buffer", "statement": "numberToString(num,string,size,base) writes at most size characters at string and returns either the text of the number or nil.", "quantifier": "for every number, base and size", "why_tests_cant": "only sizes below the length of the text misbehave", "anchors": ["src/lightspeed/base/text/textFormat.cpp:25", "src/lightspeed/base/text/textFormat.cpp:40", "src/lightspeed/base/text/textFormat.cpp:60"]}
{"id": "C93", "title": "Parsed numbers are the numbers written", "statement": "The number parsers succeed exactly when the text denotes a number of the type and return this number.", "quantifier": "for every text and base", "why_tests_cant": "numbers near the limits of the type", "anchors": ["src/lightspeed/base/text/textParser.tcc:554", "src/lightspeed/base/text/textParser.tcc:577", "src/lightspeed/base/text/textParser.cpp:21"]}
{"id": "C94", "title": "JSON writer output is standard", "statement": "The text written for any document of nulls, booleans, integers, strings, arrays and objects is a text of RFC 8259 which denotes that document, with and without escaping of non-ASCII characters.", "quantifier": "for every finite document and both escape modes", "why_tests_cant": "recursive documents; only rare code points and one integer misbehave", "anchors": ["src/lightspeed/utils/json/jsonserializer.tcc"]}
{"id": "C95", "title": "JSON parser reads standard JSON", "statement": "Every text of RFC 8259 (numbers without fraction or exponent), surrounded by white space and followed by anything, is read as the document which it denotes, and exactly its characters are consumed.", "quantifier": "for every RFC 8259 text", "why_tests_cant": "unbounded grammar: spaces, escapes, nesting, order of members", "anchors": ["src/lightspeed/utils/json/jsonparser.tcc", "src/lightspeed/utils/json/json.cpp"]}
{"id": "C96", "title": "B-tree iteration", "statement": "Iterating over a B-tree visits every item exactly once in increasing order, reports the right rank for each, and stops after the last.", "quantifier": "for every tree built by insertions", "why_tests_cant": "the path stack moves between levels at every node boundary", "anchors": ["src/lightspeed/base/containers/btree.h:BTreeIterator::Reset,More,Next,CurrentRank"]}
{"id": "C97", "title": "B-tree iteration from a key", "statement": "After positioning the iterator at a key, iteration visits exactly the items not smaller than the key, in order, with their ranks.", "quantifier": "for every tree and every key", "why_tests_cant": "depends on whether the key lies in a leaf or in an inner node", "anchors": ["src/lightspeed/base/containers/btree.h:BTreeIterator::BeginFrom"]}
{"id": "C98", "title": "The timed queue runs the earliest due message", "statement": "pumpMessage runs a message exactly when some waiting message is due, it runs one with the least due time, and messages with equal due time run in the order of posting.", "quantifier": "for every history of posting and pumping at any times", "why_tests_cant": "orders of posting and of clock values are unbounded; the sort, the merge with the old queue and the clock interact", "anchors": ["src/lightspeed/base/actions/schedulerOld.cpp:prepareQueue,pumpMessage,compareMsg,getWaitTime"]}
{"id": "C99", "title": "Parallel executor respects its thread limit", "statement": "The number of running worker threads never exceeds the configured maximum.", "quantifier": "for every history of execute, spawn, idle timeouts and stops and every interleaving", "why_tests_cant": "a worker leaving by timeout races with a new call", "anchors": ["src/lightspeed/base/actions/parallelExecutor.cpp:Worker::run,startNewThread"]}
{"id": "C100", "title": "Changing the limit of a resource pool takes effect", "statement": "After setLimit(n) at most n resources exist once the surplus resources were returned, and no less than n may be created.", "quantifier": "for every sequence of calls of setLimit and every use of the pool in between", "why_tests_cant": "depends on the moment of the call relative to the resources in use", "anchors": ["src/lightspeed/base/containers/resourcePool.cpp:setLimit"]}
{"id": "C101", "title": "No waiter of a resource pool is stranded", "statement": "A thread waiting for a resource gets one when one is returned or may be created: nobody waits while a resource is idle or while nobody holds any resource; returned resources go to the longest waiting thread.", "quantifier": "for every number of threads, every interleaving, expirations and timeouts", "why_tests_cant": "lost wake-ups are schedule dependent", "anchors": ["src/lightspeed/base/containers/resourcePool.cpp:acquire,release"]}
{"id": "C102", "title": "Shared pointer deletes its object exactly once", "statement": "An object managed by SharedPtr is deleted exactly when the last pointer to it goes away, never twice and never earlier, for every history of construction, copy, assignment (also to itself), redirection and destruction.", "quantifier": "for every history", "why_tests_cant": "ring surgery in several cases of the assignment", "anchors": ["src/lightspeed/base/memory/sharedPtr.h", "src/lightspeed/base/memory/sharedResource.h"]}
{"id": "C103", "title": "Cluster allocator reports exactly the blocks not returned", "statement": "When the cluster allocator is cleared, the leak report of every cluster lists exactly the blocks handed out from it and not returned, each once; clear reports nothing if and only if all blocks were returned.", "quantifier": "for every sequence of allocations, releases and writes of users to their blocks", "why_tests_cant": "The report walks a list of links kept inside free blocks; a test sees only a few shapes of that list.", "anchors": ["src/lightspeed/base/memory/clusterAlloc.cpp:115-128", "src/lightspeed/base/memory/clusterAlloc.cpp:309-325"]}
{"id": "C104", "title": "Fields of a query", "statement": "Iterating QueryParser over an address gives exactly the name/value fields of the query after the question mark, in order, values url-decoded; a part without an equals sign is a field of value 1 and an empty part is no field; an address without query has no fields.", "quantifier": "all paths, all lists of names without & and =, all byte values", "why_tests_cant": "The names, values, number of fields and positions of empty parts form an unbounded family; tests use tidy queries", "anchors": ["utils/queryParser.cpp:19-84", "utils/queryParser.h", "utils/urlencode.h"]}
{"id": "C105", "title": "Items of the command line", "statement": "Iterating CmdLineIterator gives for every argument exactly its items: the letters of -abc one by one, the name of --abc, the text otherwise; the text following a switch is the rest of its argument or the next argument.", "quantifier": "all lists of arguments of any length", "why_tests_cant": "The iterator keeps a position inside an argument; the combinations of bundles and parameters are unbounded", "anchors": ["base/framework/cmdLineIterator.cpp:9-84", "base/framework/cmdLineIterator.h"]}
{"id": "C106", "title": "Period of the random generator", "statement": "For every 32 bit seed the values given by Rand repeat after exactly 4474929170186502143 calls and no sooner; different seeds give different sequences; the generator never sticks at zero; multiplications do not overflow.", "quantifier": "all 2^32 seeds, all numbers of calls", "why_tests_cant": "The period is about 2^62 calls", "anchors": ["base/streams/random.h:9-49"]}
{"id": "C107", "title": "Random numbers of a range", "statement": "Numbers given by Random<natural>(min,max) and Random<integer>(min,max) lie in [min,max), and every number of the range comes from as many values of the generator as any other, up to one.", "quantifier": "all limits, all values of the generator", "why_tests_cant": "2^128 ranges times 2^32 values", "anchors": ["base/streams/random.h:55-109"]}
{"id": "C108", "title": "A file in memory behaves as a file", "statement": "Any sequence of reads, peeks, writes (at the position, at the end or at an offset), changes of size and of position on a MemFile returns what it returns on an array of bytes of that length; memory outside of the buffer is not touched; MemFileStr reads its text.", "quantifier": "all sequences of calls with any sizes, offsets and data", "why_tests_cant": "Sequences, sizes and offsets are unbounded; the interesting ones (size = naturalNull, gaps) are corners", "anchors": ["base/streams/memfile.h", "base/streams/memfile.tcc:19-112", "base/streams/memfile.cpp:17-65"]}
{"id": "C109", "title": "The sorting filter sorts", "statement": "Items given to SortFilter come out all, each once, each being one that no other item in the filter follows in the order; with a limited buffer the filter accepts one more item and then refuses; copies, assignments and clear keep exactly the items of the source.", "quantifier": "all orders that are strict weak, all sequences of input and output, all limits of the buffer", "why_tests_cant": "Sequences are unbounded; the behaviour depends on the shape of the heap", "anchors": ["base/iter/sortFilter.h", "base/iter/sortFilter.tcc:20-116", "base/containers/sort.tcc"]}
{"id": "C110", "title": "LZWp: decompression inverts compression", "statement": "For any bytes and any limit of the code width, LZWpDecompress gives back what LZWpCompress got, also after any number of prunings of the dictionary: both sides keep the same items, give them the same codes and go on with the same code width.", "quantifier": "all byte sequences of any length, all limits of the code width from 9 on", "why_tests_cant": "Pruning happens only after hundreds of codes and keeps a number of items that depends on the whole text; the widths differ only for a few of these numbers", "anchors": ["utils/lzw.cpp:16-63", "utils/lzw.cpp:106-153", "utils/lzw.h", "utils/lzw.tcc"]}
{"id": "C111", "title": "The line reader gives the lines of the text", "statement": "For every nonempty separator, TextLineReader gives the lines of the text in order: each up to the first separator, the last one up to the end of the text; hasItems and peek do not change what is read, and after the last line getNext throws.", "quantifier": "all separators, all texts, all sequences of hasItems, peek and getNext", "why_tests_cant": "Texts and separators are unbounded; separators that overlap themselves behave in their own way", "anchors": ["base/text/textLineReader.h:57-105"]}
{"id": "C112", "title": "TextIn::readLine gives the lines of the text", "statement": "With any newline sequence, readLine gives the text up to the first newline sequence, takes the line and the sequence from the input and nothing else; at the end of the text it gives the rest.", "quantifier": "all texts, all newline sequences, any state of the look-ahead buffer", "why_tests_cant": "Texts are unbounded; the fault needs beginnings of a newline sequence that do not continue", "anchors": ["base/text/textIn.h:145-190", "base/text/textIn.tcc"]}
{"id": "C113", "title": "Iterators over the look-ahead buffer do not depend on each other", "statement": "Every iterator over TextInBuffer gives the characters of the input from its place on, whatever other iterators, marks and commits do; at the end of the input getNext throws.", "quantifier": "all texts, all sequences of creating iterators, reading, looking ahead, marking and committing", "why_tests_cant": "Any number of iterators and commits in any order", "anchors": ["base/text/textInBuffer.h", "base/text/textInBuffer.tcc"]}
{"id": "C114", "title": "Merging two iterators", "statement": "MergeIterator gives the items its functor says, in all orders of calls of hasItems, peek and getNext; MergeConcatFn concatenates, MergeSortFn and the functor of the sorted sets merge sorted sources into a sorted one, with or without duplicates.", "quantifier": "all functors, all sources of any length, all strict weak orders, all sequences of calls", "why_tests_cant": "Sources are unbounded; the fault depends on which source ends first", "anchors": ["base/iter/merge.h:141-204", "base/iter/merge.h:330-370", "base/containers/arraySet.tcc:41-58"]}
{"id": "C115", "title": "Chunked bodies of HTTP messages", "statement": "The body written to HttpRequest in any pieces, with any chunk size and flushes, is sent as a chunked body of RFC 7230 with the same bytes; HttpResponse reads every chunked body (any division into chunks, extensions, trailers) back to the same bytes in all orders of hasItems, peek and getNext, reports the end again and again, and leaves what follows the body.", "quantifier": "all bodies, all divisions into chunks, all chunk extensions and trailers, all sequences of calls", "why_tests_cant": "The fault depends on the digits of the chunk size and on what is called after the end", "anchors": ["base/streams/httpc.h", "base/streams/httpc.tcc", "base/text/toString.h:50-90"]}
{"id": "C116", "title": "Bodies of known length and bodies until the end", "statement": "HttpResponse with Content-Length gives exactly so many bytes and leaves what follows, getNext at the end throws, and a body cut short is reported; without a length it gives everything until the end of the input.", "quantifier": "all bodies, all inputs behind them, all sequences of hasItems, peek and getNext", "why_tests_cant": "All sequences of calls with any body and any following message", "anchors": ["base/streams/httpc.tcc:301-325", "base/streams/httpc.tcc:357-455"]}
{"id": "C117", "title": "Heads of HTTP messages", "statement": "open() of HttpResponse reads code, message and all header fields of every well-formed head (names without regard to letters, blanks around values, first of equal names), chooses the right way to read the body and stops at its first byte; a head cut short is not accepted. HttpRequest sends each header once with its last value, and never Content-Length together with chunks.", "quantifier": "all heads with any number of fields, all bodies behind them", "why_tests_cant": "Heads are unbounded; names come in any letters", "anchors": ["base/streams/httpc.tcc:106-157", "base/streams/httpc.tcc:244-342", "base/streams/httpc.tcc:470-543"]}
{"id": "C118", "title": "INI files are read as written", "statement": "Every file of sections, fields, quoted values, comments, blank lines and commands, with any blanks around names and values and any ends of lines, is parsed into exactly its fields in order, each with its section, trimmed name and value; errors are reported or, when asked for, skipped line by line.", "quantifier": "all files built from well-formed lines, any length; both settings of ignoreErrors", "why_tests_cant": "Blanks, lengths of values and ends of lines combine without bound; the faults need values of one character or a missing last end of line", "anchors": ["utils/configParser.h", "utils/configParser.tcc:56-319", "base/containers/arrayt.h:261-272"]}
{"id": "C119", "title": "Looking up fields of INI files", "statement": "getValue(section, field, index) gives the index-th value that the file assigns to the field, in the order of the file, where letters of section and field names do not matter, and nothing if there are fewer values.", "quantifier": "all sequences of fields with names free of zero bytes, all names asked for, all indices", "why_tests_cant": "Any number of fields and of repeated fields in any order of insertion", "anchors": ["utils/configParser.h:66-140", "utils/configParser.cpp:37-47", "base/linux/string.cpp:29-39", "base/containers/map.h:385-605"]}
{"id": "C120", "title": "Listing fields of INI files", "statement": "enumFields(section, prefix) lists exactly the fields of the section whose names start with the prefix, with all their values in the order of the file, fields in ascending order, where letters do not matter.", "quantifier": "all sequences of fields with names free of zero bytes, all sections and prefixes", "why_tests_cant": "The list depends on all neighbours in the sorted map and on the spelling of each", "anchors": ["utils/configParser.h:130-136", "utils/configParser.cpp:53-85"]}
{"id": "C121", "title": "Reduced results of MapReduce", "statement": "After any sequence of insert, erase, clear and reduce, reduce() gives the results of all items present, combined in the order of their keys with the associative operator+ (the default value for an empty map); insert and erase behave as on a set and nothing fails.", "quantifier": "all sequences of operations, all strict weak orders, all associative operations", "why_tests_cant": "A stale result needs an erasure after a reduce in a tree of a certain shape", "anchors": ["base/containers/mapreduce.h", "base/containers/mapreduce.tcc", "base/containers/avltreenode.h:343-446", "base/containers/avltreenode.tcc:137-290"]}
{"id": "C122", "title": "Strings of a string pool keep their text", "statement": "After any sequence of add (string, iterator), writers, freeExtra, release and clear, every string handed out and not given up (by clear, or by release of a mark taken before it) reads as the text it was made from, wherever the pool was moved meanwhile; a text loaded in parts is given back by fromMark.", "quantifier": "all sequences of operations, all texts, all choices of which growth moves the block", "why_tests_cant": "The block moves only at some sizes; the address is stale only between a write and finish", "anchors": ["base/containers/stringpool.h", "base/containers/stringpool.tcc"]}
{"id": "C123", "title": "UTF-8 filters", "statement": "WideToUtf8Filter followed by Utf8ToWideFilter gives back every sequence of wchar_t values; the text in between is standard UTF-8; the decoder decodes standard UTF-8 and rejects anything that is not a sequence of characters.", "quantifier": "all texts of wchar_t values, all byte strings", "why_tests_cant": "Single code points at the borders of lengths; single byte values", "anchors": ["base/streams/utf.h:50-91", "base/streams/utf.cpp:19-116"]}
{"id": "C124", "title": "Binary archives give back what was stored", "statement": "For every serialization script (numbers, floats, characters, strings, arrays, default values, dynamic sections, nested in any way) and every value, BinaryReader loads from what BinaryWriter stored the same value and stops exactly behind it.", "quantifier": "all scripts, all values, all bytes behind", "why_tests_cant": "Round trip over an unbounded family of nested types", "anchors": ["base/serialize/binFormat.h", "base/serialize/lightSpeedTypes.h", "base/serialize/serializer.h:288-352", "base/serialize/basicTypes.h"]}
{"id": "C125", "title": "Comparison of strings", "statement": "StrCmpCS is the lexicographic order of the characters; StrCmpCI is the lexicographic order of the small letters, and an order as maps need it; the operators of a string and a literal mean what they say; C functions read from cStr exactly the string.", "quantifier": "for all strings, literals, and contents of the memory behind a string", "why_tests_cant": "Universal over pairs of strings of different lengths, with zeros inside, and over memory behind a string.", "anchors": ["src/lightspeed/base/containers/constStr.h:166-243", "src/lightspeed/base/containers/string.tcc:30-44", "src/lightspeed/base/linux/string.cpp:29-52", "src/lightspeed/base/linux/string.cpp:114-151"]}
{"id": "C126", "title": "Names of enumerators", "statement": "NamedEnum finds a name exactly when a definition has it and gives the enumerator of such a definition; an enumerator gives the name of a definition with it, an empty string when there is none; with different names and enumerators both searches are inverse.", "quantifier": "for all arrays of definitions, in any order, and all names and enumerators looked for", "why_tests_cant": "Universal over arrays of all sizes and orders, sorted by an indirect heap sort and searched by halving.", "anchors": ["src/lightspeed/base/namedEnum.h:46-195", "src/lightspeed/base/containers/sort.tcc:17-103"]}
{"id": "C127", "title": "Locking two locks at once", "statement": "A thread that has locked a LockPair owns both locks, alone; one whose call failed, timed out, threw, or that has unlocked owns none. A thread that waits owns nothing, so threads cannot deadlock; and a thread that keeps trying gets the pair in the end.", "quantifier": "for all numbers of threads and locks, all pairs and orders of the locks, all interleavings, exceptions and timeouts", "why_tests_cant": "Universal over interleavings; the disturbance needs an exact alternation that a test does not hit.", "anchors": ["src/lightspeed/base/sync/lockPair.h:40-180"]}
{"id": "C128", "title": "Numbers, remaining arguments and positions of a command line", "statement": "Among any mix of getNext, getNextText and getNextNumber on a CmdLineIterator: getNextNumber gives the number that the text at the position denotes, or an error; getRemainArgs gives what is not read yet; positions are totally ordered by lessThan and equalTo, and every reading call moves forward; an empty argument is a text. (Items of arguments alone are C105.)", "quantifier": "for all lists of arguments, offsets and positions", "why_tests_cant": "Universal over arguments with any characters, also empty ones and single dashes, and any mix of calls.", "anchors": ["src/lightspeed/base/framework/cmdLineIterator.cpp:9-100", "src/lightspeed/base/framework/cmdLineIterator.h:8-47"]}
{"id": "C129", "title": "Linked list with iterators", "statement": "List holds its items in order under addFront, addBack, insertAfter, insertBefore, erase, clear; iterators read them forward and backward, stay valid when other items come and go, and tell distance and order; size is the number of items; an item exists exactly as long as it is in the list or an iterator stands on it.", "quantifier": "for all sequences of operations, all numbers of items and iterators, all places", "why_tests_cant": "Universal over operation sequences with live iterators; ring pointers and reference counts must agree in every state.", "anchors": ["src/lightspeed/base/containers/list.h:37-459", "src/lightspeed/base/memory/refCntPtr.h:100-316"]}
{"id": "C130", "title": "Iterators over a filter give what the filter gives", "statement": "For every filter that follows the rules of IIteratorFilter and every source, FilterRead returns from getNext, peek and blockRead exactly the items that the filter gives for the items of the source and for their end, in order, none lost and none twice, then IteratorNoMoreItems; hasItems says whether an item is to come; FilterWrite writes the same items by write, blockWrite and flush; blockRead and blockWrite with readAll and writeAll process the whole array.", "quantifier": "for every filter, every source, every mixture of peek, getNext, block reads and writes, every size of the array", "why_tests_cant": "the filters, the sources and the points where a filter fills up are unbounded; the errors need a peek before a block read, a filter that swallows items or one that gives items at the end", "anchors": ["src/lightspeed/base/iter/iteratorFilter.h:170-235", "src/lightspeed/base/iter/iteratorFilter.tcc:16-182", "src/lightspeed/base/iter/iteratorFilter.h:325-383"]}
{"id": "C131", "title": "Placeholders are replaced by their values", "statement": "A template made of characters, of characters behind $ and of variables ${name} read or written through PlaceholderFilter or PlaceholderConvert gives the same text with each variable replaced by its value (the last declaration; the empty text without one) and each $c by c; values are not scanned again; a text without $ is unchanged; no part of a malformed template is lost without an error.", "quantifier": "for every template, every table of variables", "why_tests_cant": "the templates, names and values are unbounded, and the filter meets every cut of its input", "anchors": ["src/lightspeed/base/iter/placeholders.h:18-165"]}
{"id": "C132", "title": "The old Base64 and hexadecimal filters follow RFC 4648 and turn each other back", "statement": "Base64Encoder (both alphabets, with and without padding), read or written through Filter<>::Read/Write, gives the text of RFC 4648 of the bytes; hasItems tells exactly whether a character is to come; Base64Decoder gives the bytes back from padded and unpadded text with any foreign characters strewn in, and hasItems stops in time; what follows a flush or the padding is not lost and not undefined; the hexadecimal decoder gives the bytes back from their digits, made with or without a table; an odd digit or a foreign character is an error and not what was left from before; getRemain is the number of items to come.", "quantifier": "for every byte string, every text, every number of calls", "why_tests_cant": "texts are unbounded, and the group of four characters is cut by the calls in every possible way", "anchors": ["src/lightspeed/utils/base64.tcc:23-155", "src/lightspeed/utils/base64.h:100-305", "src/lightspeed/utils/base64.cpp:225-235"]}
{"id": "C133", "title": "The old URL filters and the filters for 16-bit characters turn each other back", "statement": "UrlEncoder read or written through the filter iterators gives the percent-encoding of the text, UrlDecoder gives back what a well-formed text stands for (with + for a space), hasItems stops in time, and a malformed text (% or %4 at the end, no digits behind %) is an error; WideToBytes gives the bytes of 16-bit characters in the chosen order, BytesToWide gives the characters back, a byte order mark in front sets the order; no character is lost or changed without an error.", "quantifier": "for every text, every number of reads and writes", "why_tests_cant": "the texts are unbounded and the filter keeps bytes of earlier characters", "anchors": ["src/lightspeed/utils/urlencode.h:50-152", "src/lightspeed/base/streams/utf.h:94-153"]}
{"id": "C134", "title": "Strings keep their text", "statement": "String variables behave as independent values: loading a text, copying, replacing, clearing, isolating a string, changing a character through data(), and filling a new string through an iterator and its copies give every string exactly its text, with the right length and a terminating zero behind it; a change of one string is never seen in another; buffers are freed exactly when nobody holds them.", "quantifier": "for every history on any number of strings and iterators", "why_tests_cant": "sharing of buffers makes every string depend on the whole history of the others", "anchors": ["src/lightspeed/base/containers/stringBase.h:12-413", "src/lightspeed/base/containers/constStr.h:17-60", "src/lightspeed/base/memory/refCntPtr.h:60-304"]}
{"id": "C135", "title": "The pool of memory blocks", "statement": "PoolAlloc gives every block to one caller at a time and never smaller than asked; a block given back is reused or freed, never both; nothing is freed twice or used after it is freed; and when the owner has released the pool and all blocks have been given back, every block has been freed.", "quantifier": "for every interleaving of any number of threads and every history of alloc, dealloc and release", "why_tests_cant": "the answer depends on the interleaving of single reads and writes of the shared variables, and on failures of operator new", "anchors": ["src/lightspeed/base/memory/poolalloc.h:8-103"]}
{"id": "C136", "title": "Pointers with ownership", "statement": "Every object given to OwnedPtr has exactly one owner at every time: copying moves ownership, plain assignment and the notOwned constructor do not, <<= takes it when the source has it. Pointers without ownership never destroy anything; the owner destroys its object once, by the allocator that made it; when all pointers are gone every object has been destroyed.", "quantifier": "for every number of pointers and every history of construction, copy, assignment, <<=, swap, detach, clear, attach and destruction", "why_tests_cant": "which operation breaks the ownership shows only in later destructions, and only for some orders of the operations and addresses", "anchors": ["src/lightspeed/base/memory/ownedPointer.h:47-182", "src/lightspeed/base/memory/allocPointer.h:33-246"]}
{"id": "C137", "title": "The allocator in a buffer", "statement": "AllocInBuffer gives blocks that lie in the buffer, do not overlap with other blocks the program has and are usable for objects (aligned); a request is refused exactly when it does not fit, and a refused request or a failed constructor changes nothing; memory given back is used again.", "quantifier": "for every size of the buffer and every history of alloc, dealloc and createInstance with a throwing constructor", "why_tests_cant": "needs all sizes including those near 2^64 and all orders of giving blocks back", "anchors": ["src/lightspeed/base/memory/runtimeAlloc.h:161-202", "src/lightspeed/base/memory/runtimeAlloc.h:80-156"]}
{"id": "C138", "title": "Memory of containers with room inside", "statement": "Objects of SmallAlloc<cnt>::AllocatedMemory use their own buffer for up to cnt items and otherwise hold one block; every block is held by exactly one object and is given back once, to the one who made it and with its size, also when arrays grow, shrink, swap and move; getSize items always fit to the memory, and a new object has at least the requested room.", "quantifier": "for every cnt and item size, every number of objects and every history of construction, copy, swap, move and destruction, with and without runtime allocators", "why_tests_cant": "a wrong deallocator shows only for arrays with a runtime allocator that grow twice, and most heaps do not report it", "anchors": ["src/lightspeed/base/memory/smallAlloc.h:38-142", "src/lightspeed/base/containers/autoArray.tcc:24-76"]}
{"id": "C139", "title": "Text of a decimal number becomes its value", "statement": "strtod reads a decimal number (white space, sign, whole part, fraction, exponent) at the start of a text up to its end and returns its value, before rounding exact for up to 18 digits and short by less than one unit of the 18th digit otherwise; stringToFloatNumber converts exactly the texts that are numbers, zero and tiny numbers included.", "quantifier": "for every text", "why_tests_cant": "The digits are read twice, in two groups of nine with the point anywhere between, and the exponent is put together from three parts; tests use few lengths and never exponents near the limits of int.", "anchors": ["src/lightspeed/base/text/strtodouble.cpp:88-265", "src/lightspeed/base/text/textParser.cpp:48-55"]}
{"id": "C140", "title": "A message reaches every listener of a distributor", "statement": "When Distributor::send has returned and its stage was not stopped, every listener that was there when the message was sent and still is has got it exactly once, in the order of the list, also when listeners add, remove, send, finish and stop while they are called; the sender is skipped, the exit message reaches all, and no operation is undefined.", "quantifier": "for every history of operations and nested calls", "why_tests_cant": "Listeners may do anything at any depth of nested calls; the positions of all pending messages must be right after every change of the list.", "anchors": ["src/lightspeed/base/actions/distrubutor.tcc:16-253", "src/lightspeed/base/actions/distributor.h:108-380", "src/lightspeed/base/containers/linkedList.h:222-269"]}
{"id": "C141", "title": "A path chain names the place its steps lead to", "statement": "The path built from base / a / b / parent / nil is absolute and names the directory or file reached by walking from the directory of the base along the steps, where parent goes one directory up; it fits the computed buffer; the path, file name, title, extension and drive of a path are its parts; stored paths may be continued.", "quantifier": "for every base, every number and kind of steps and every text", "why_tests_cant": "Texts and chains have unbounded length; the number of parents carries over several steps.", "anchors": ["src/lightspeed/utils/FilePath.h:18-381", "src/lightspeed/utils/linux/FilePath.cpp:13-21", "src/lightspeed/utils/windows/FilePath.cpp:13-20"]}
{"id": "C142", "title": "A pattern of the formatter gives its parts with the arguments in place", "statement": "TextFormat writes the text of its pattern: the plain characters as they are, %% as one percent sign, a line end as the set line end, and every %n as the n-th argument that was given, wherever the arguments were copied or referred to. More than thirty arguments are refused. An object without a pattern writes its arguments one after another.", "quantifier": "For every pattern, every list of arguments and every mixture of copied and referred arguments", "why_tests_cant": "Arguments are ends of texts in one shared buffer or references, their places depend on all the arguments before them, and the reading of a field of the pattern depends on the characters behind it; tests cover a few patterns.", "anchors": ["src/lightspeed/base/text/textFormat.tcc:78-498", "src/lightspeed/base/text/textFormat.h:82-211", "src/lightspeed/base/memory/staticAlloc.h:37-40"]}
{"id": "C144", "title": "A variable that may hold a value keeps exactly one living value", "statement": "For every program that constructs, assigns (from values, from other such variables, by copy or by move), empties, reads and destroys Optional variables under the rules of use, each variable shows what an Option would show; objects live exactly in the variables that hold a value, so that nothing is destroyed twice, used when dead or never destroyed; a constructor of a value that throws leaves every variable usable and an assignment that throws leaves the old value.", "quantifier": "all programs over any number of variables, all values, references into values at every depth, throwing constructors", "why_tests_cant": "tests try plain assignments; they do not assign from inside of the own value and do not throw from copies", "anchors": ["src/lightspeed/base/containers/optional.h:31-231"]}
{"id": "C143", "title": "A pattern of the text parser reads exactly its texts", "statement": "TextParser checks a text against a pattern made of plain characters, white space, sets [..], fields %(number)type, quoted parts and branches. A call succeeds exactly on the texts of the pattern and stores for every field the part of the text it stands for; a negated set accepts the characters that are not in it, a search skips to the first match, the second branch is tried where the first one began, an unfinished pattern is refused, and every call comes to an end.", "quantifier": "All patterns of the modelled form, all texts, all settings of the parser.", "why_tests_cant": "Patterns are programs: their combinations with all texts, ends in the middle of an element, and branches that consume part of the text before they fail are not covered by a few checked addresses.", "anchors": ["src/lightspeed/base/text/textParser.tcc:25-801", "src/lightspeed/base/text/textParser.h:68-490", "src/lightspeed/base/linux/sshHandler.cpp:35-36"]}
{"id": "C145", "title": "Every ready descriptor is told once, with its own data", "statement": "LinuxFdSelect keeps a set of descriptors, each with a mask, a pointer and a time. set, unset, isSet and getData keep and find exactly what was registered; getNext asks poll only when nobody has something to tell, and then tells every descriptor on which something asked for happened, or whose time is over, or which waits for nothing, once, with its own data; waitForEvent is true exactly when only the time of the caller ended; a wake-up from another thread interrupts the waiting, is told with its reason, and changes nothing of the other descriptors; all wake-ups are delivered, and the pipe is closed once.", "quantifier": "All sequences of calls, all sets of descriptors, all answers of poll, all times.", "why_tests_cant": "What poll answers and when a wake-up comes is given by the outside; a lost event shows only when a wake-up hits between poll and the call that tells it.", "anchors": ["src/lightspeed/base/linux/linuxFdSelect.cpp:22-288", "src/lightspeed/base/linux/linuxFdSelect.h:29-200", "src/lightspeed/base/linux/linuxNetWaitingObj.cpp:14-70"]}
{"id": "C146", "title": "Every accepted action is started once, in order, and threads leave when told", "statement": "QueueExecutor keeps a queue of actions that any number of threads serve. Every accepted action is started exactly once, in the order of acceptance, unless finish drops it; no action stays in the queue while a serving thread waits; after finish nothing new is started, actions are refused, all threads leave serve, and the gate is open exactly when no thread serves, so that join, stopAll and the destructor come back; a thread that is told to finish leaves after its action; isRunning tells whether an action is being executed.", "quantifier": "All numbers of threads, all interleavings of execute, serve, finish, reset and cancel, all numbers of actions.", "why_tests_cant": "Lost wake-ups and lost counts need particular interleavings of the semaphore, the lock and the counter.", "anchors": ["src/lightspeed/base/actions/queueExecutor.cpp:17-188", "src/lightspeed/base/actions/queueExecutor.h:25-110"]}
{"id": "C147", "title": "Each thread has its own value of a thread variable, and it is destroyed once", "statement": "TLSTable, ThreadVar and TLSAllocator: living variables have different indexes; after set a variable has the given value in that table and no other variable changes; every value registered with a delete function is deleted exactly once, when it is replaced, unset, or when the table is cleared at the end of the thread; clear comes back with nothing set even if destructors set variables; a value that cannot be registered is not lost; a new variable is empty in all threads; moveTo hands the values over.", "quantifier": "All sequences of calls, all indexes, all tables, all behaviours of destructors that use the table.", "why_tests_cant": "Destructors that set variables during the end of a thread, and indexes that are used again, need rare combinations; double deletes show only as memory damage.", "anchors": ["src/lightspeed/base/sync/threadVar.h:26-465", "src/lightspeed/base/sync/tlsalloc.cpp:11-37", "src/lightspeed/base/sync/tlsalloc.h:30-75", "src/lightspeed/mt/linux/thread.cpp:180-193"]}
{"id": "C148", "title": "Descriptors are waited for once, with their own timeouts", "statement": "EPollSelect tells each registered descriptor at most once per registration, with the registered data and the flags of an event that was asked for, or without flags when its own timeout is over; registering, telling and cancelling one descriptor changes nothing for the others, timeouts are told in the order of their times, and a registration that fails leaves no trace.", "quantifier": "for all sequences of registrations, waits, wake-ups, cancellations and closings of descriptors, all answers of the kernel and all times", "why_tests_cant": "The heap of timeouts and the references into it go wrong only after particular sequences of registrations and events; tests see single descriptors and few timeouts.", "anchors": ["src/lightspeed/base/linux/epollSelect.cpp:52-244", "src/lightspeed/base/linux/pollSelect.cpp:86-88", "src/lightspeed/base/containers/sort.tcc:68-80"]}
{"id": "C149", "title": "Observers of sockets are called once, for what they wait for", "statement": "The network event listener calls an observer exactly when the descriptor it waits for has an event it asked for or its time is over, once, and lets the others of the same descriptor wait on; a new request of an observer replaces the old one, a request for nothing cancels it; the kernel waits for each descriptor for exactly what its observers wait for, until the earliest of their times; memory is kept for descriptors with observers only and never used after its release.", "quantifier": "for all sequences of requests and turns of the worker, all answers of the kernel, all times, any number of descriptors and observers", "why_tests_cant": "Wrong behaviour needs several observers on one descriptor, a descriptor that is closed or refused while it is waited for, or a reused descriptor number; a test with one socket and one observer sees none of it.", "anchors": ["src/lightspeed/base/linux/networkEventListener.cpp:72-141", "src/lightspeed/base/linux/networkEventListener.cpp:153-197", "src/lightspeed/base/linux/networkEventListener.h:47-62"]}
{"id": "C150", "title": "Messages for another thread run once, in order", "statement": "A message given to an APC server is queued by execute, which returns and says whether the other side has to be told; executeQueue runs every queued message once, oldest first, and returns; the destructor tells every message that did not run, once, that it is rejected.", "quantifier": "for all numbers of threads, all interleavings of their steps and all messages", "why_tests_cant": "The calls run forever only when a message is already queued or two threads meet; whether a loop ends in every interleaving is not visible in a test.", "anchors": ["src/lightspeed/mt/apc.h:50-159"]}
{"id": "C151", "title": "Block and limited operations of iterators move the items they say", "statement": "Reading and writing a block, copying, copying what is accepted and copying through a buffer move the first items of the source, in order, as many as the limit, the source and the target allow, return their number and leave all others in the source; a limiter lets through exactly the first items up to its count behind its offset, says truly whether it has or accepts items and counts only what was moved.", "quantifier": "for all sources, targets, buffer sizes, limits and offsets", "why_tests_cant": "The counts agree in small cases where everything fits; that they agree for every combination of limit, source, buffer and room needs an argument over all of them.", "anchors": ["src/lightspeed/base/iter/iterator.h:441-459", "src/lightspeed/base/iter/iterator.h:531-582", "src/lightspeed/base/iter/limiter.h:15-90"]}
{"id": "C152", "title": "Locks held by scopes are given back", "statement": "A lock object holds its lock from its construction to the end of its scope, however the scope is left; SyncReleased gives the lock up for its scope and takes it back; trying to lock throws instead of waiting; after any program of such scopes the lock is held as many times as before.", "quantifier": "for all programs of nested scopes, exceptions and both kinds of locks", "why_tests_cant": "Programs are trees of any depth with exceptions anywhere; tests run a few shapes.", "anchors": ["src/lightspeed/base/sync/synchronize.h:27-84", "src/lightspeed/base/sync/trysynchronized.h:51-59", "src/lightspeed/mt/fastlock.h:206-288"]}
{"id": "C153", "title": "What was written is in the output before the input is read", "statement": "Whenever a reader connected with an autoflush writer reads, everything written before is in the output, in order; writing the flush character flushes at once; between writes the output is flushed once only; without a connection nothing is flushed; NULL chooses the writer's own dirty flag.", "quantifier": "for all histories of writing, skipping, flushing, reading, connecting and settings", "why_tests_cant": "A missing flush shows as a deadlock with the other side only in some histories; that no history has one needs an invariant.", "anchors": ["src/lightspeed/base/streams/autoflush.h:21-80", "src/lightspeed/base/streams/autoflush.h:103-162", "src/lightspeed/base/streams/autoflush.h:182-260"]}
{"id": "C154", "title": "The iterator of a generator gives what the function writes", "statement": "Reading the iterator of a generator gives every item the generating function writes, once and in order; hasItems says truly whether there is one and loses none, peek shows the item getNext gives, getNext works without asking before; after the function returned there is nothing more; blockWrite returns how many of its items were read.", "quantifier": "for all functions that write any blocks and all histories of the reader", "why_tests_cant": "Two stacks run in turns; every item must survive every switch, for every history of calls.", "anchors": ["src/lightspeed/base/iter/generator.tcc:18-143", "src/lightspeed/mt/linux/fiber.cpp:118-228"]}
{"id": "C155", "title": "A variant holds what was put into it", "statement": "A variant gives its value back when it is read with its type and refuses other types, without undefined behaviour; it converts to its type and its bases only; variants are equal exactly when both are empty or types and values are the same, and comparing works for empty ones; a reference gives the current value of its variable, an isolated copy does not depend on it.", "quantifier": "for all types, values, variables and base relations", "why_tests_cant": "All pairs of kinds, types and states of variables have to agree; tests use a few types.", "anchors": ["src/lightspeed/base/containers/variant.h:165-258", "src/lightspeed/base/containers/variant.cpp:13-49"]}
{"id": "C156", "title": "Locking several locks at once does not deadlock", "statement": "A multilock locks its locks in the order of their addresses, each once; threads that use multilocks never wait for each other in a circle; no lock is held by two threads; unlocking frees all locks; trying says whether all locks were locked, and holds nothing when it says no.", "quantifier": "for all numbers of threads, sequences of multilocks, addresses and interleavings", "why_tests_cant": "A deadlock needs a particular interleaving of several threads; tests cannot go through all.", "anchors": ["src/lightspeed/base/sync/multilock.h:14-134"]}
{"id": "C157", "title": "Automatic numbers of a map are not used twice", "statement": "The next number of an index map is not used and never was given to an inserted object; what is added under it is found there and other objects stay; a number that is used keeps its object; with lazy erasing the object erased last is still found, and only it, until its number is used again.", "quantifier": "for all sequences of calls, numbers and values", "why_tests_cant": "A number used twice loses an object silently; it needs particular sequences of calls or very great numbers.", "anchors": ["src/lightspeed/base/containers/indexMap.h:25-82", "src/lightspeed/base/containers/map.h:138-260"]}
{"id": "C158", "title": "Numbers of several bytes survive writing and reading", "statement": "Bytes read as a number make the number of their order on every machine, whatever was there before; a number is written as its bytes in the given order; numbers written on one machine are read on any other when the order is given; what comes at the wrong time is refused.", "quantifier": "for all numbers of bytes, numbers, sequences, orders and machines", "why_tests_cant": "Tests run on machines of one byte order only.", "anchors": ["src/lightspeed/base/streams/multibyte.h:10-155"]}
{"id": "C159", "title": "An array in a block of fixed size stays in the block", "statement": "An array over InBlockAlloc adds items exactly when they have room in the block, otherwise it refuses and nothing changes; no call writes outside of the block; memory asked for a number of items has room for them; a table of thread variables made for k variables takes exactly these.", "quantifier": "for all sizes of blocks and items, sequences of calls and counts", "why_tests_cant": "Writing behind a block on the stack may go unnoticed; counts near the greatest number are not tested.", "anchors": ["src/lightspeed/base/memory/inBlockAlloc.h:20-66", "src/lightspeed/base/containers/autoArray.tcc:23-115", "src/lightspeed/mt/linux/thread.cpp:182-191"]}
{"id": "C160", "title": "Counting iterators count what was transferred", "statement": "A counting iterator gives the same items as the iterator below it, and its counter is what it was and the number of items that were read or written, with any mixture of single and block calls.", "quantifier": "for all sources, targets, sequences of calls and counters", "why_tests_cant": "Exceptions in the middle of a block are rare in tests.", "anchors": ["src/lightspeed/base/iter/counters.h:19-96"]}
