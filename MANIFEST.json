{
 "claims": [
  {
   "property": "C01",
   "status": "proved",
   "theorems": [
    "LS.CompressNumb.C01_compress_roundtrip",
    "LS.CompressNumb.C01_signed_roundtrip"
   ],
   "note": "all unsigned 64-bit values and all signed 64-bit values"
  },
  {
   "property": "C02",
   "status": "proved",
   "theorems": [
    "LS.CompressNumb.C02_stream_self_delimiting",
    "LS.CompressNumb.C02_prefix_free"
   ],
   "note": "list of numbers decoded from the concatenation; no code word is a prefix of another"
  },
  {
   "property": "C03",
   "status": "proved",
   "theorems": [
    "LS.CompressNumb.C03_order_preserving"
   ],
   "note": "byte-wise lexicographic order equals numeric order"
  },
  {
   "property": "C04",
   "status": "proved",
   "theorems": [
    "LS.Base64.C04_encode_is_rfc4648",
    "LS.Base64.C04_roundtrip",
    "LS.Base64.C04_default_decoder"
   ],
   "note": "any usable alphabet, with or without padding; output equals RFC 4648; default decoder takes both alphabets"
  },
  {
   "property": "C05",
   "status": "partial",
   "theorems": [
    "LS.Base32.C05_encode_is_rfc4648_partial",
    "LS.Base32.C05_roundtrip_partial",
    "LS.Base32.C05_case_insensitive_decoder",
    "LS.Base32.C05_unpadded_violated"
   ],
   "note": "Round trip and RFC 4648 form proved for padded output; the unpadded variant does not round trip (witness proved)"
  },
  {
   "property": "C06",
   "status": "partial",
   "theorems": [
    "LS.Base16.C06_encode",
    "LS.Base16.C06_roundtrip_partial",
    "LS.Base16.C06_lowercase_default_violated"
   ],
   "note": "Upper-case alphabet proved; the default lower-case encoder/decoder pair disagrees (witness proved)"
  },
  {
   "property": "C07",
   "status": "partial",
   "theorems": [
    "LS.Base85.C07_encode_partial",
    "LS.Base85.C07_decode",
    "LS.Base85.C07_roundtrip_partial",
    "LS.Base85.C07_multiple_of_four_violated",
    "LS.Base85.C07_empty_violated"
   ],
   "note": "Encoder right exactly when length is not a multiple of 4; decoder right for every byte string; for multiples of 4 and the empty input the encoder is wrong (witnesses proved)"
  },
  {
   "property": "C08",
   "status": "proved",
   "theorems": [
    "LS.UrlEncode.C08_urlencode",
    "LS.UrlEncode.C08_passthrough",
    "LS.UrlEncode.C08_plus_is_space"
   ],
   "note": "URL encoding: output alphabet, round trip, plus sign"
  },
  {
   "property": "C09",
   "status": "partial",
   "theorems": [
    "LS.Utf.C09_roundtrip",
    "LS.Utf.C09_decode",
    "LS.Utf.C09_standard_form_partial",
    "LS.Utf.C09_standard_form_violated"
   ],
   "note": "Round trip proved for every non-negative wchar_t sequence and decoding of standard UTF-8 proved; encoder's output is standard except for U+07FF and U+FFFF (witness proved)"
  },
  {
   "property": "C10",
   "status": "proved",
   "theorems": [
    "LS.Lzw.c10_lzw_roundtrip"
   ],
   "note": "Every byte string, every limit of the code width from 9 on (smaller values give a limit below the first code, so the dictionary is never cleared; not covered)."
  },
  {
   "property": "C11",
   "status": "partial",
   "theorems": [
    "LS.Lzw.c11_lzw_segments_violated",
    "LS.Lzw.c11_padding_violated",
    "LS.Lzw.c11_lzw_segments_partial"
   ],
   "note": "Violated for one decompressor over several segments (stale dictionary; extra padding byte). Proved: each segment with a new decompressor."
  },
  {
   "property": "C12",
   "status": "partial",
   "theorems": [
    "LS.Conv.c12_blocks",
    "LS.Conv.c12_pending",
    "LS.Conv.c12_items",
    "LS.Conv.c12_pull",
    "LS.Conv.c12_write",
    "LS.Conv.c12_read",
    "LS.c12_library",
    "LS.Conv.c12_blockRead_partial",
    "LS.c12_blockRead_violated",
    "LS.c12_eolb_violated"
   ],
   "note": "Any division into blocks equals one block for every converter (c12_blocks, c12_pending). Blocks = single items = read iterator for every converter while it does not end a logical block (c12_write, c12_read; instances for the 12 converters modelled, c12_library); c12_pull covers the end of a logical block. Violated: block read after hasItems throws at the end of the source; single writes ignore the end of a logical block."
  },
  {
   "property": "C13",
   "status": "proved",
   "theorems": [
    "LS.Deque.C13_deque_is_sequence",
    "LS.Deque.C13_reserve_result"
   ],
   "note": "Refinement of the ring buffer to a sequence for every history on two deques; no UB, no leak; allocation assumed to succeed"
  },
  {
   "property": "C14",
   "status": "proved",
   "theorems": [
    "LS.Deque.C14_queue_fifo",
    "LS.Deque.C14_stack_lifo",
    "LS.Deque.C14_fifo_order"
   ],
   "note": "FIFO/LIFO for every interleaving"
  },
  {
   "property": "C15",
   "status": "proved",
   "theorems": [
    "LS.Heap.C15_heapsort_sorts"
   ],
   "note": "HeapSort::sort for every strict weak order and container"
  },
  {
   "property": "C16",
   "status": "proved",
   "theorems": [
    "LS.Heap.C16_top_is_maximal",
    "LS.Heap.C16_push_adds",
    "LS.Heap.C16_pop_removes_top",
    "LS.Heap.C16_popAt_violated"
   ],
   "note": "push/pop/top correct after every history; extra finding: pop(at) breaks the heap order"
  },
  {
   "property": "C17",
   "status": "partial",
   "theorems": [
    "LS.Heap.C17_push_top_partial",
    "LS.Heap.C17_pop_violated",
    "LS.Heap.C17_pop_leaves_one_violated"
   ],
   "note": "pop removes the wrong number of items (violated); pushes and top proved"
  },
  {
   "property": "C18",
   "status": "proved",
   "theorems": [
    "LS.Avl.c18_set",
    "LS.Avl.c18_total",
    "LS.Avl.c18_iterator"
   ],
   "note": "AVLTree over any strict weak order; c18_set: every run of insert/erase/find/size/clear is a run of the specification set; c18_total: no undefined behaviour; c18_iterator: insert returns an iterator at the existing or new node and leaves the tree unchanged if the key exists"
  },
  {
   "property": "C19",
   "status": "proved",
   "theorems": [
    "LS.Avl.c19_balanced",
    "LS.Avl.Tree.c19_height",
    "LS.Avl.Tree.c19_path",
    "LS.Avl.Tree.c19_maxHeight",
    "LS.Avl.c21_history"
   ],
   "note": "balance factors exact and within -1..1 after any history (also with removal through iterators, c21_history); fib(height+2) <= n+1; the iterator path of 64 nodes suffices below 4.4e13 keys"
  },
  {
   "property": "C20",
   "status": "proved",
   "theorems": [
    "LS.Avl.Tree.c20_iterate",
    "LS.Avl.Tree.c20_seek",
    "LS.Avl.c21_removeIter",
    "LS.Avl.c21_history"
   ],
   "note": "both directions; seek to any key; trees with height at most 64 (the length of the array in the iterator, c19_path); removal through an iterator leaves it at the next key"
  },
  {
   "property": "C21",
   "status": "partial",
   "theorems": [
    "LS.Avl.c21_size",
    "LS.Avl.c21_history",
    "LS.Avl.c21_removeIter",
    "LS.Avl.c21_basic_violated",
    "LS.Avl.c21_basic_partial"
   ],
   "note": "holds for AVLTree after any history; violated by AvlTreeBasic: remove(iter) decrements the size only if the height is unchanged, clear leaves it"
  },
  {
   "property": "C22",
   "status": "partial",
   "theorems": [
    "LS.BTree.c22_find",
    "LS.BTree.c22_rank_partial",
    "LS.BTree.c22_add_new",
    "LS.BTree.c22_duplicate_violated"
   ],
   "note": "Any insertions (fewer than 2^50): lookup finds exactly what was inserted, the nodes keep their fill limits, all leaves have the same depth. Items different from each other: size, item of each rank and rank of each key are right. An item inserted again while it is the middle key of a full node which is split is stored twice and ranks are wrong (c22_duplicate_violated)."
  },
  {
   "property": "C23",
   "status": "partial",
   "theorems": [
    "LS.BTree.c23_remove_partial",
    "LS.BTree.c23_least_partial",
    "LS.BTree.c23_spare_partial",
    "LS.BTree.c23_rotate_violated",
    "LS.BTree.c23_inner_violated",
    "LS.BTree.c23_right_violated",
    "LS.BTree.c23_last_violated"
   ],
   "note": "Every run whose rotations and merges are the sound ones removes exactly the key and keeps the tree well formed; total for trees with the least or with spare keys in each node. Violated: a rotation of leaves uses null arrays (also for an absent key), a key of an inner node stays and its successor is lost, a rotation to the right writes to the wrong place, the size stays 1 after the last removal."
  },
  {
   "property": "C24",
   "status": "partial",
   "theorems": [
    "LS.AutoArray.c24_edits_partial",
    "LS.AutoArray.c24_insert_partial",
    "LS.AutoArray.c24_insertArray_partial",
    "LS.AutoArray.c24_insertIter",
    "LS.AutoArray.c24_erase_partial",
    "LS.AutoArray.c24_trunc",
    "LS.AutoArray.c24_clear",
    "LS.AutoArray.c24_resize",
    "LS.AutoArray.c24_resizeWith",
    "LS.AutoArray.c24_addN",
    "LS.AutoArray.c24_append",
    "LS.AutoArray.c24_reserve",
    "LS.AutoArray.freeExtra_holds",
    "LS.AutoArray.c24_copy",
    "LS.AutoArray.c24_assign_partial",
    "LS.AutoArray.c24_at",
    "LS.AutoArray.c24_set",
    "LS.AutoArray.c24_swap",
    "LS.AutoArray.c24_destructor",
    "LS.AutoArray.c24_addOwn_partial",
    "LS.AutoArray.c24_insert0_violated",
    "LS.AutoArray.c24_insertArray0_violated",
    "LS.AutoArray.c24_erase_violated",
    "LS.AutoArray.c24_add_violated",
    "LS.AutoArray.c24_addOwn_violated",
    "LS.AutoArray.c24_insertOwn_violated",
    "LS.AutoArray.c24_appendSelf_violated",
    "LS.AutoArray.c24_assignSelf_violated"
   ],
   "note": "Every edit acts as the edit of a sequence, for every allocator (std, static, small), incl. refusals; whole edit sequences (c24_edits_partial). Violated: insert of 0 items in front of an item, overflow of at+count in erase and of the size in add, arguments referring into the array itself, append to itself, self-assignment."
  },
  {
   "property": "C25",
   "status": "partial",
   "theorems": [
    "LS.ArraySet.C25_find_partial",
    "LS.ArraySet.C25_create_find_partial",
    "LS.ArraySet.C25_items",
    "LS.ArraySet.C25_find_item_violated",
    "LS.ArraySet.C25_duplicates_violated",
    "LS.ArraySet.C25_insert_violated",
    "LS.ArraySet.C25_erase_violated",
    "LS.ArraySet.C25_erase_count_violated",
    "LS.ArraySet.C25_erase_zero_violated",
    "LS.ArraySet.C25_resize_violated",
    "LS.ArraySet.C25_detect_violated"
   ],
   "note": "lookup is exact after every history of add, insert, erase, trunc, clear and ordering calls that keep the prefix ordered, and after construction; the returned item is wrong for the unordered part, duplicates are never removed, and five kinds of calls break the ordered prefix or read outside"
  },
  {
   "property": "C26",
   "status": "partial",
   "theorems": [
    "LS.LinkedList.C26_operations_partial",
    "LS.LinkedList.C26_assign_partial",
    "LS.LinkedList.C26_copy_partial",
    "LS.LinkedList.C26_copy_violated",
    "LS.LinkedList.C26_assign_self_violated",
    "LS.LinkedList.C26_erase_last_violated",
    "LS.LinkedList.C26_remove_last_violated",
    "LS.LinkedList.C26_returned_iterator_violated",
    "LS.LinkedList.C26_const_last_violated",
    "LS.LinkedList.C26_erase_end_violated"
   ],
   "note": "add, insertFirst, insertAfter, insertBefore, eraseFirst, clear, assignment and erasing of an item other than the last of several refine plain lists; the copy is reversed, erasing the last item leaves a dangling last pointer, self-assignment empties, returned iterators erase the first item, const getLast is the first item"
  },
  {
   "property": "C27",
   "status": "partial",
   "theorems": [
    "LS.Buffer.c27_partial",
    "LS.Buffer.c27_flush",
    "LS.Buffer.c27_unwrite",
    "LS.Buffer.c27_violated"
   ],
   "note": "buffer.h write buffer; data loss at a partially accepted block during write is proved (wrpos -= x); everything else holds, flush tolerates any partial acceptance"
  },
  {
   "property": "C28",
   "status": "partial",
   "theorems": [
    "LS.Buffer.c28_partial",
    "LS.Buffer.c28_all",
    "LS.Buffer.c28_next",
    "LS.Buffer.c28_peek",
    "LS.Buffer.c28_hasItems",
    "LS.Buffer.c28_unget",
    "LS.Buffer.c28_ungetLast",
    "LS.Buffer.c28_peekAt_violated",
    "LS.Buffer.c28_peekAt_hangs_violated",
    "LS.Buffer.c28_quiet_end_violated"
   ],
   "note": "buffer.h read buffer; all calls refine a plain list for every block pattern except peek(n), which shows consumed items or hangs, and devices that end silently"
  },
  {
   "property": "C29",
   "status": "proved",
   "theorems": [
    "LS.FastLock.c29_mutual_exclusion",
    "LS.FastLock.c29_trylock_fails",
    "LS.FastLock.c29_unlock_reads_live"
   ],
   "note": "all schedules, numbers of threads, slot addresses (reuse included) and spurious wake-ups; sequentially consistent memory; lock, tryLock, unlock by the owner"
  },
  {
   "property": "C30",
   "status": "proved",
   "theorems": [
    "LS.FastLock.c30_fifo",
    "LS.FastLock.c30_no_lost_wakeup",
    "LS.FastLock.c30_waiter_served"
   ],
   "note": "order of acquisition is a prefix of the order of arrivals (successful exchange on queue); every waiter can always be served; an elected sleeper has its wake-up"
  },
  {
   "property": "C31",
   "status": "proved",
   "theorems": [
    "LS.MicroLock.c31_mutual_exclusion",
    "LS.MicroLock.c31_fifo",
    "LS.MicroLock.c31_unlock_reads_live",
    "LS.MicroLock.c31_waiter_served"
   ],
   "note": "all schedules, numbers of threads, object addresses and spurious wake-ups; sequentially consistent memory; one Synchronized object per thread and lock"
  },
  {
   "property": "C32",
   "status": "partial",
   "theorems": [
    "LS.SpinLock.c32_mutual_exclusion_partial",
    "LS.SpinLock.c32_foreign_unlock_ignored",
    "LS.SpinLock.c32_steal_violated",
    "LS.SpinLockR.c32_recursive_owner",
    "LS.SpinLockR.c32_recursive_release"
   ],
   "note": "mutual exclusion proved for tryLock/lock/unlock/give and for the recursive lock; false for steal (two threads can both take over a dead owner's lock)"
  },
  {
   "property": "C33",
   "status": "proved",
   "theorems": [
    "LS.LevelLock.c33_same_level",
    "LS.LevelLock.c33_writer_exclusive",
    "LS.LevelLock.c33_no_overtaking",
    "LS.LevelLock.c33_no_ub"
   ],
   "note": "all histories of lock, tryLock, unlock, cancelAsync; operations are atomic under the internal fast lock (C29)"
  },
  {
   "property": "C34",
   "status": "partial",
   "theorems": [
    "LS.LevelLock.c34_grant_partial",
    "LS.LevelLock.c34_availability_violated",
    "LS.LevelLock.c34_dead_after_contention",
    "LS.LevelLock.c34_cancel_violated"
   ],
   "note": "false: qbot is never reset, after any contention the lock without holder is lost for ever (proved in general); holds while no request ever had to wait; cancelAsync leaves qbot dangling"
  },
  {
   "property": "C35",
   "status": "partial",
   "theorems": [
    "LS.Mutex.c35_exclusive_partial",
    "LS.Mutex.c35_turns_partial",
    "LS.Mutex.c35_violated",
    "LS.Mutex.c35_not_stuck_partial",
    "LS.Mutex.c35_fifo_partial"
   ],
   "note": "violated for tryLock on a mutex never locked before (recursion not set); proved for all other programs: exclusion, recursion count, FIFO hand-over, no stuck waiters"
  },
  {
   "property": "C36",
   "status": "partial",
   "theorems": [
    "LS.Semaphore.c36_conserve_partial",
    "LS.Semaphore.c36_available_partial",
    "LS.Semaphore.c36_defined_partial",
    "LS.Semaphore.c36_never_over",
    "LS.Semaphore.c36_timeout_violated",
    "LS.Semaphore.c36_cancel_violated"
   ],
   "note": "violated twice: an expired timed lock leaves its destroyed slot in the queue; cancelLockAsync of an immediate grant loses the permit. Proved: never over-granted in any defined program; conservation and availability without these two"
  },
  {
   "property": "C37",
   "status": "proved",
   "theorems": [
    "LS.Gate.c37_released",
    "LS.Gate.c37_signaled_leaves",
    "LS.Gate.c37_no_lost",
    "LS.Gate.c37_open_passes",
    "LS.Gate.c37_left_not_queued"
   ],
   "note": "Atomic transitions of gate.h over the SyncPt list; time-outs modelled by a nondeterministic expire event."
  },
  {
   "property": "C38",
   "status": "proved",
   "theorems": [
    "LS.SyncPt.c38_refines",
    "LS.SyncPt.c38_once",
    "LS.SyncPt.c38_removed"
   ],
   "note": "refinement of the linked list of slots to a list specification, any sequence of calls; calls are atomic (internal FastLock, C29)"
  },
  {
   "property": "C39",
   "status": "partial",
   "theorems": [
    "LS.SList.c39_stack_partial",
    "LS.SList.c39_one_consumer",
    "LS.SList.c39_push_take",
    "LS.SList.c39_result",
    "LS.SList.c39_violated"
   ],
   "note": "Linearizable with one consumer or without pop; in general if less than 16 pops and no take overtake a pop; violated by ABA with two threads."
  },
  {
   "property": "C40",
   "status": "proved",
   "theorems": [
    "LS.Promise.c40",
    "LS.Promise.c40_once",
    "LS.Promise.c40_first",
    "LS.Promise.c40_observer",
    "LS.Promise.c40_all",
    "LS.Promise.c40_order",
    "LS.Promise.c40_wait",
    "LS.Promise.c40_enabled",
    "LS.Promise.c40_wakeup"
   ],
   "note": "transition system of Future::Value over its lock: one resolution, each observer notified at most once and never after unregistering, all notified when calls returned, registration order, wait returns that outcome, no lost wakeup; with cancel() calls the observers taken by cancel get its exception"
  },
  {
   "property": "C41",
   "status": "partial",
   "theorems": [
    "LS.Promise.c41_partial",
    "LS.Promise.c41_violated"
   ],
   "note": "observers registered before the drop are notified; those registered after it are not (violated)"
  },
  {
   "property": "C42",
   "status": "partial",
   "theorems": [
    "LS.MsgQueue.c42_partial",
    "LS.MsgQueue.c42_once_partial",
    "LS.MsgQueue.c42_order_partial",
    "LS.MsgQueue.c42_empty_partial",
    "LS.MsgQueue.c42_cancel_partial",
    "LS.MsgQueue.c42_accepted_partial",
    "LS.MsgQueue.c42_violated"
   ],
   "note": "Linearizable to a sequential queue with priorities, exactly once, in order, null only when empty, cancellation; all for compilers which read the right operand of != before the exchange. With the other permitted order a message can be delivered twice (violation proved)."
  },
  {
   "property": "C43",
   "status": "partial",
   "theorems": [
    "LS.Dispatch.C43_in_order_partial",
    "LS.Dispatch.C43_first_partial",
    "LS.Dispatch.C43_later_actions_violated",
    "LS.Dispatch.C43_violated"
   ],
   "note": "at most the first dispatched action is ever run (once, and it is not lost); every later action is neither run nor rejected"
  },
  {
   "property": "C44",
   "status": "partial",
   "theorems": [
    "LS.Dispatch.C44_heap_partial",
    "LS.Dispatch.C44_violated"
   ],
   "note": "the heap finds and removes the earliest event, and nothing happens before it is due; but the promise resolved belongs to the next event (or is destroyed), and the thread then waits for its own lock"
  },
  {
   "property": "C45",
   "status": "partial",
   "theorems": [
    "LS.ParExec.C45_exactly_once",
    "LS.ParExec.C45_handover",
    "LS.ParExec.C45_no_lost_wakeup_partial",
    "LS.ParExec.C45_progress_partial",
    "LS.ParExec.C45_enabled_partial",
    "LS.ParExec.C45_stuck",
    "LS.ParExec.C45_after_stop_violated"
   ],
   "note": "exactly-once, validity of the hand-over, no lost wake-up and progress (default idle timeout, no stopping); after stopAll a later execute waits for ever"
  },
  {
   "property": "C46",
   "status": "partial",
   "theorems": [
    "LS.ResPool.C46_one_holder",
    "LS.ResPool.C46_no_resurrection",
    "LS.ResPool.C46_limit_partial",
    "LS.ResPool.C46_limit_serial",
    "LS.ResPool.C46_limit_violated"
   ],
   "note": "one holder: all histories; number: limit + k - 1 when at most k creations overlap, in particular the limit when they do not; exceeded when two operations pass the test together"
  },
  {
   "property": "C47",
   "status": "partial",
   "theorems": [
    "LS.RefCnt.C47_no_ub_partial",
    "LS.RefCnt.C47_alive_partial",
    "LS.RefCnt.C47_once_partial",
    "LS.RefCnt.C47_last_partial",
    "LS.RefCnt.C47_stable_partial",
    "LS.RefCnt.C47_value_partial",
    "LS.RefCnt.C47_self_violated",
    "LS.RefCnt.C47_next_violated",
    "LS.RefCnt.C47_create_violated"
   ],
   "note": "all threads, histories and schedules by the rules of use; false for self assignment, p = p->next and create on a shared pointer"
  },
  {
   "property": "C48",
   "status": "partial",
   "theorems": [
    "LS.WeakRef.C48_withdrawn",
    "LS.WeakRef.C48_null",
    "LS.WeakRef.C48_valid",
    "LS.WeakRef.C48_wakeup",
    "LS.WeakRef.C48_range",
    "LS.WeakRef.C48_notify_partial",
    "LS.WeakRef.C48_notify_violated",
    "LS.WeakRef.C48_notify_violated'",
    "LS.WeakRef.C48_assign_violated",
    "LS.WeakRef.C48_holders_partial",
    "LS.WeakRef.C48_free_partial"
   ],
   "note": "withdrawal, NULL after it, pointer before it, wake-up: proved for all schedules; a late notification of a dead thread and the assignment of locked pointers are violations"
  },
  {
   "property": "C49",
   "status": "partial",
   "theorems": [
    "LS.SharedRes.C49_groups_partial",
    "LS.SharedRes.C49_spec_equiv",
    "LS.SharedRes.C49_self_violated",
    "LS.SharedRes.C49_self_always"
   ],
   "note": "all histories without an assignment of an object to itself; self assignment leaves the group"
  },
  {
   "property": "C50",
   "status": "partial",
   "theorems": [
    "LS.Cluster.C50_disjoint_partial",
    "LS.Cluster.C50_inside_partial",
    "LS.Cluster.C50_no_error_partial",
    "LS.Cluster.C50_alloc_partial",
    "LS.Cluster.C50_reuse_partial",
    "LS.Cluster.C50_owner_violated",
    "LS.Cluster.C50_via_violated",
    "LS.Cluster.C50_zero_violated"
   ],
   "note": "proved for all histories if blocks are returned through the allocator, or through the owner with a size that needs no rounding; false through the owner otherwise, for allocation through a cluster and for zero bytes"
  },
  {
   "property": "C51",
   "status": "proved",
   "theorems": [
    "LS.Rat64.C51_gcd_correct"
   ],
   "note": "all 64-bit pairs, including termination"
  },
  {
   "property": "C52",
   "status": "partial",
   "theorems": [
    "LS.Rat64.C52_arith_partial",
    "LS.Rat64.C52_negative_violated",
    "LS.Rat64.C52_quarter_violated",
    "LS.Rat64.C52_less_correct",
    "LS.Rat64.C52_div_partial"
   ],
   "note": "exact unless a negative result has a common factor; those are always wrong (violated). Comparison proved. Division for positive divisors."
  },
  {
   "property": "C53",
   "status": "partial",
   "theorems": [
    "LS.Rat64.C53_power_partial",
    "LS.Rat64.C53_powerNumber_violated",
    "LS.Rat64.C53_power_violated"
   ],
   "note": "violated for every base other than -1, 0, 1"
  },
  {
   "property": "C54",
   "status": "partial",
   "theorems": [
    "LS.Time.C54_add_exact",
    "LS.Time.C54_sub_exact",
    "LS.Time.C54_add_sub",
    "LS.Time.C54_sub_add",
    "LS.Time.C54_compare",
    "LS.Time.C54_unix_roundtrip_partial",
    "LS.Time.C54_unix_negative_violated"
   ],
   "note": "arithmetic and comparison proved exact; Unix conversion proved for times not before the base date, violated before"
  },
  {
   "property": "C55",
   "status": "partial",
   "theorems": [
    "LS.Time.C55_intervals_partial",
    "LS.Time.C55_minutes_violated"
   ],
   "note": "all constructors but intervalMin proved; intervalMin is right exactly below 144 minutes"
  },
  {
   "property": "C56",
   "status": "partial",
   "theorems": [
    "LS.Time.C56_consecutive",
    "LS.Time.C56_computed",
    "LS.Time.C56_roundtrip_violated"
   ],
   "note": "day numbers are consecutive (proved); the way back swaps year and day and misplaces first days of months (exact characterisation, violated)"
  },
  {
   "property": "C57",
   "status": "partial",
   "theorems": [
    "LS.NumText.c57_toString_natural",
    "LS.NumText.c57_natural_round_trip",
    "LS.NumText.c57_integer_round_trip_partial",
    "LS.NumText.c57_format_round_trip_partial",
    "LS.NumText.c57_minimum_violated"
   ],
   "note": "all of natural; integer except -2^63, whose negation overflows"
  },
  {
   "property": "C58",
   "status": "proved",
   "theorems": [
    "LS.Json.c58_string_round_trip"
   ],
   "note": "every byte string, whatever follows; RFC 8259 spec in between"
  },
  {
   "property": "C59",
   "status": "partial",
   "theorems": [
    "LS.Json.c59_document_round_trip_partial",
    "LS.Json.c59_digit_violated",
    "LS.Json.c94_minimum_violated",
    "LS.Json.parse_fuel",
    "LS.Json.addField_sorted"
   ],
   "note": "holds without real numbers and -2^63, a one digit integer must be followed by a delimiter; violated for one digit at end of input and for -2^63"
  },
  {
   "property": "C60",
   "status": "partial",
   "theorems": [
    "LS.Json.c60_ascii",
    "LS.Json.c60_round_trip_partial",
    "LS.Json.c60_violated"
   ],
   "note": "ASCII for every accepted byte string; round trip below U+10000 without U+07FF and U+FFFF; violated for U+1F600 and U+07FF"
  },
  {
   "property": "C61",
   "status": "partial",
   "theorems": [
    "LS.BinJson.c61_binary_round_trip_partial",
    "LS.BinJson.c61_top_array_partial",
    "LS.BinJson.c61_positive_violated",
    "LS.BinJson.c61_string_violated",
    "LS.BinJson.c61_nested_array_violated",
    "LS.BinJson.c61_array_in_object_violated",
    "LS.BinJson.c61_least_number_violated"
   ],
   "note": "Holds for documents without arrays, positive numbers and string values outside the enum table (nested objects, any keys). Arrays of such documents at the top come back right with opcEnd left in the stream. Every positive number comes back negated, every other string comes back empty, nested arrays are cut: negations proved. Conversion of double to bytes is a parameter."
  },
  {
   "property": "C62",
   "status": "proved",
   "theorems": [
    "LS.Crc.C62_crc_standard"
   ],
   "note": "table, byte step and block splitting against the bitwise CRC-32"
  },
  {
   "property": "C63",
   "status": "proved",
   "theorems": [
    "LS.Crc.C63_bit_burst",
    "LS.Crc.C63_crc_burst"
   ],
   "note": "bursts of up to 32 bits at any bit position; byte windows as a corollary"
  },
  {
   "property": "C64",
   "status": "partial",
   "theorems": [
    "LS.Digest.Sha1.c64_sha1_chunks",
    "LS.Digest.Md5.c64_md5_chunks_partial",
    "LS.Digest.Md5.c89_md5_long_violated"
   ],
   "note": "SHA-1 proved for all divisions; MD5 for pieces below 2^28 bytes (md5_append overflows an int beyond that)"
  },
  {
   "property": "C65",
   "status": "proved",
   "theorems": [
    "LS.OldSched.C65_sort",
    "LS.OldSched.C65_stable",
    "LS.OldSched.C65_by_time"
   ],
   "note": "sorting never fails, is a permutation sorted by due time, and stable in posting order"
  },
  {
   "property": "C66",
   "status": "partial",
   "theorems": [
    "LS.Rat64.C66_floor_ceil_partial",
    "LS.Rat64.C66_floor_violated"
   ],
   "note": "proved for non-negative numbers, violated for negative ones"
  },
  {
   "property": "C67",
   "status": "partial",
   "theorems": [
    "LS.Time.C67_day_overflow_partial",
    "LS.Time.C67_day_overflow_violated"
   ],
   "note": "proved for day counts 1..365, violated for 366 and for day 0"
  },
  {
   "property": "C68",
   "status": "partial",
   "theorems": [
    "LS.FastLock.c68_foreign_unlock_violated",
    "LS.FastLock.c29_mutual_exclusion"
   ],
   "note": "false: two holders after address reuse; holds when the owner unlocks (C29)"
  },
  {
   "property": "C69",
   "status": "partial",
   "theorems": [
    "LS.FastLock.c69_async_violated"
   ],
   "note": "false: Async on a free lock blocks the lock for ever"
  },
  {
   "property": "C70",
   "status": "partial",
   "theorems": [
    "LS.SyncPt.c70_reuse_violated",
    "LS.SyncPt.c70_refused_always"
   ],
   "note": "violated: charged is never cleared, so add refuses a slot for ever"
  },
  {
   "property": "C71",
   "status": "partial",
   "theorems": [
    "LS.Gate.c71_violated",
    "LS.Gate.c71_passes_open_partial"
   ],
   "note": "Violated when open and close of two threads overlap; proved for a single controlling thread."
  },
  {
   "property": "C72",
   "status": "partial",
   "theorems": [
    "LS.SList.c72_violated",
    "LS.SList.c39_one_consumer",
    "LS.SList.c39_push_take"
   ],
   "note": "Violated when take runs during a pop; holds with one consumer or without pop."
  },
  {
   "property": "C73",
   "status": "partial",
   "theorems": [
    "LS.Avl.c73_violated",
    "LS.Avl.c18_iterator"
   ],
   "note": "violated after a double rotation; holds for an existing key; the iterator is always at the right node"
  },
  {
   "property": "C74",
   "status": "partial",
   "theorems": [
    "LS.Avl.c74_violated",
    "LS.Avl.c74_partial"
   ],
   "note": "violated when the flag is false before the call or not passed; holds when it is true before"
  },
  {
   "property": "C75",
   "status": "proved",
   "theorems": [
    "LS.IOBuffer.c75",
    "LS.IOBuffer.c75_putBack",
    "LS.IOBuffer.c75_peek0_violated"
   ],
   "note": "All sequences of reading calls with peek of at least one byte; peek of zero bytes returns a wrapped negative number (violation proved)."
  },
  {
   "property": "C76",
   "status": "proved",
   "theorems": [
    "LS.IOBuffer.c76",
    "LS.IOBuffer.c76_flush"
   ],
   "note": "All sequences of writes and flushes."
  },
  {
   "property": "C77",
   "status": "partial",
   "theorems": [
    "LS.IOBuffer.c77_partial",
    "LS.IOBuffer.c77_violated",
    "LS.IOBuffer.c77_outside_violated",
    "LS.IOBuffer.c77_putBack_violated"
   ],
   "note": "Mixed programs, guarded: no write while unread input fills the whole buffer, no putBack onto pending output; violations proved for both."
  },
  {
   "property": "C78",
   "status": "partial",
   "theorems": [
    "LS.MsgQueue.c78_partial",
    "LS.MsgQueue.c78_violated"
   ],
   "note": "Exact when no poster is between exchange and increment and the worker holds no message; the counter is -1 with a message waiting otherwise (violation proved)."
  },
  {
   "property": "C79",
   "status": "partial",
   "theorems": [
    "LS.Promise.c79_partial",
    "LS.Promise.c79_violated"
   ],
   "note": "notification begins while the observer exists, no access after a timeout; the access to the thread pointer after the result was stored can come too late (violated)"
  },
  {
   "property": "C80",
   "status": "partial",
   "theorems": [
    "LS.PromiseRef.c80_partial",
    "LS.PromiseRef.c80_run_partial",
    "LS.PromiseRef.c80_violated"
   ],
   "note": "construction, copy, destruction; the implicit copy assignment does not keep the counter (violated)"
  },
  {
   "property": "C81",
   "status": "partial",
   "theorems": [
    "LS.ArrayT.c81_length",
    "LS.ArrayT.c81",
    "LS.ArrayT.c81_empty_partial",
    "LS.ArrayT.c81_empty_violated"
   ],
   "note": "length and items proved for all expressions; empty() is inverted for sections of expressions that are not flat"
  },
  {
   "property": "C82",
   "status": "partial",
   "theorems": [
    "LS.ArrayT.c82_partial",
    "LS.ArrayT.c82_all_partial",
    "LS.ArrayT.c82_violated",
    "LS.ArrayT.c82_empty_violated"
   ],
   "note": "right without sums, and with sums for ranges from the first item; violated for ranges across the border of a sum and for repeated empty arrays"
  },
  {
   "property": "C83",
   "status": "partial",
   "theorems": [
    "LS.ArrayT.c83_partial",
    "LS.ArrayT.c83_from_partial",
    "LS.ArrayT.c83_seq_partial",
    "LS.ArrayT.c83_seqFrom_partial",
    "LS.ArrayT.c83_oneOf_partial",
    "LS.ArrayT.c83_violated",
    "LS.ArrayT.c83_from_violated",
    "LS.ArrayT.c83_seq_violated"
   ],
   "note": "right in flat arrays (strings); find(item), findOneOf also in other arrays except for sections of expressions; violated otherwise"
  },
  {
   "property": "C84",
   "status": "partial",
   "theorems": [
    "LS.ArrayT.c84_partial",
    "LS.ArrayT.findLastSeq_eq",
    "LS.ArrayT.c84_seq_partial",
    "LS.ArrayT.c84_violated",
    "LS.ArrayT.c84_seq_violated",
    "LS.ArrayT.c84_missed_violated"
   ],
   "note": "findLast(item) right except for sections of expressions; findLast(array) returns the index of the last item of the sequence and gives up after one candidate"
  },
  {
   "property": "C85",
   "status": "partial",
   "theorems": [
    "LS.ArrayT.c85",
    "LS.ArrayT.c85_mid_partial",
    "LS.ArrayT.c85_crop_partial",
    "LS.ArrayT.c85_trim",
    "LS.ArrayT.c85_trimArray",
    "LS.ArrayT.c85_mid_violated",
    "LS.ArrayT.c85_crop_violated"
   ],
   "note": "head, offset, tail, roffset, trim for all arguments; mid and crop unless the sum of the arguments overflows, then violated"
  },
  {
   "property": "C86",
   "status": "partial",
   "theorems": [
    "LS.ArrayT.c86_partial",
    "LS.ArrayT.c86_unique",
    "LS.ArrayT.c86_violated"
   ],
   "note": "for flat arrays, with uniqueness of the parts; violated for expressions"
  },
  {
   "property": "C87",
   "status": "proved",
   "theorems": [
    "LS.ArrayT.c87",
    "LS.ArrayT.c87_iff"
   ],
   "note": ""
  },
  {
   "property": "C88",
   "status": "partial",
   "theorems": [
    "LS.ArrayT.c88_partial",
    "LS.ArrayT.c88_violated"
   ],
   "note": "render(iterator) right (from the first item, no repeated empty arrays); render(array) violated"
  },
  {
   "property": "C89",
   "status": "partial",
   "theorems": [
    "LS.Digest.Md5.c89_md5_standard_partial",
    "LS.Digest.Md5.c89_md5_long_violated"
   ],
   "note": "holds for pieces below 2^28 bytes; longer pieces overflow an int"
  },
  {
   "property": "C90",
   "status": "proved",
   "theorems": [
    "LS.Digest.Sha1.c90_sha1_standard"
   ],
   "note": ""
  },
  {
   "property": "C91",
   "status": "partial",
   "theorems": [
    "LS.Digest.Md5.c91_hash_iterator_partial",
    "LS.Digest.Md5.c91_flush_twice_violated"
   ],
   "note": "one finish: digest and text right; a second flush changes the digest"
  },
  {
   "property": "C92",
   "status": "partial",
   "theorems": [
    "LS.NumText.c92_unsigned_partial",
    "LS.NumText.c92_signed_partial",
    "LS.NumText.c92_overrun_violated"
   ],
   "note": "size is only compared with 2 or 3: the text overruns a smaller buffer; the 100 characters used by the library are enough"
  },
  {
   "property": "C93",
   "status": "partial",
   "theorems": [
    "LS.NumText.c93_parse_natural_partial",
    "LS.NumText.c93_parse_integer_partial",
    "LS.NumText.c93_string_partial",
    "LS.NumText.c93_string_accepts_partial",
    "LS.NumText.c93_parse_overflow_violated",
    "LS.NumText.c93_parse_wide_violated",
    "LS.NumText.c93_parse_minimum_violated",
    "LS.NumText.c93_string_violated"
   ],
   "note": "exact for numbers in range; overflow, wide characters, -2^63 and double signs violate it"
  },
  {
   "property": "C94",
   "status": "partial",
   "theorems": [
    "LS.Json.c94_writes_standard_partial",
    "LS.Json.c94_escape_violated",
    "LS.Json.c94_minimum_violated"
   ],
   "note": "holds without real numbers and -2^63; with escapes below U+10000; violated for U+1F600 and -2^63"
  },
  {
   "property": "C95",
   "status": "partial",
   "theorems": [
    "LS.Json.c95_reads_standard_partial",
    "LS.Json.c95_digit_violated",
    "LS.Json.c95_escape_violated",
    "LS.Json.c95_surrogates_violated",
    "LS.Json.c95_overflow_violated"
   ],
   "note": "holds for integers within 63 bits, escapes except U+07FF, U+FFFF and surrogate pairs, one digit numbers followed by a delimiter; violations proved"
  },
  {
   "property": "C96",
   "status": "proved",
   "theorems": [
    "LS.BTree.c96_iterate"
   ],
   "note": "For every well-formed tree of fewer than 2^50 items (the local path has 50 entries); insertions give such trees (C22)."
  },
  {
   "property": "C97",
   "status": "partial",
   "theorems": [
    "LS.BTree.c97_begin_from_partial",
    "LS.BTree.c97_inner_violated"
   ],
   "note": "For keys which are not in an inner node; for a key in an inner node BeginFrom uses a null array (c97_inner_violated)."
  },
  {
   "property": "C98",
   "status": "partial",
   "theorems": [
    "LS.OldSched.C98_earliest_due_partial",
    "LS.OldSched.C98_fifo_partial",
    "LS.OldSched.C98_mixed_violated"
   ],
   "note": "queues with timed messages only, times and clock below 2^63: earliest due message, FIFO among equal times; with untimed messages mixed in the order is wrong"
  },
  {
   "property": "C99",
   "status": "partial",
   "theorems": [
    "LS.ParExec.C99_limit_partial",
    "LS.ParExec.C99_limit_violated"
   ],
   "note": "holds with the default (infinite) idle timeout and a fixed limit; exceeded when a worker which has timed out takes an action"
  },
  {
   "property": "C100",
   "status": "partial",
   "theorems": [
    "LS.ResPool.C100_raise_once_partial",
    "LS.ResPool.C100_lower_violated",
    "LS.ResPool.C100_raise_violated"
   ],
   "note": "a single raise works; lowering has no effect on unused capacity, a second raise counts from the old limit"
  },
  {
   "property": "C101",
   "status": "partial",
   "theorems": [
    "LS.ResPool.C101_no_idle",
    "LS.ResPool.C101_oldest",
    "LS.ResPool.C101_not_stranded_partial",
    "LS.ResPool.C101_stranded_violated",
    "LS.ResPool.C101_throw_violated"
   ],
   "note": "nobody waits while a resource is idle, the oldest waiter is served, nobody is stranded when creations neither overlap nor throw; two schedules where a waiter is stranded"
  },
  {
   "property": "C102",
   "status": "proved",
   "theorems": [
    "LS.SharedRes.C102_refines",
    "LS.SharedRes.C102_once"
   ],
   "note": "refinement of a map from pointers to objects, for all histories"
  },
  {
   "property": "C103",
   "status": "partial",
   "theorems": [
    "LS.Cluster.C103_leaks_partial",
    "LS.Cluster.C103_clear_partial"
   ],
   "note": "under the rules of use of C50"
  },
  {
   "property": "C104",
   "status": "partial",
   "theorems": [
    "LS.Query.C104_fields_partial",
    "LS.Query.C104_parts_partial",
    "LS.Query.C104_violated",
    "LS.Query.C104_empty_violated"
   ],
   "note": "Round trip for one or more name=value fields, and any query without empty parts. Violated: an empty part replaces the following field by an empty one; an address without query has one field."
  },
  {
   "property": "C105",
   "status": "partial",
   "theorems": [
    "LS.Query.C105_items_partial",
    "LS.Query.C105_total",
    "LS.Query.C105_param",
    "LS.Query.C105_violated"
   ],
   "note": "All lists of arguments none of which is empty. An empty argument makes peek read behind its end."
  },
  {
   "property": "C106",
   "status": "proved",
   "theorems": [
    "LS.Random.C106_period",
    "LS.Random.C106_values",
    "LS.Random.C106_seeds",
    "LS.Random.C106_alive",
    "LS.Random.C106_setSeed"
   ],
   "note": "Primality of the modulus and of half of it by Lucas certificates checked in the kernel; the step is multiplication modulo the prime."
  },
  {
   "property": "C107",
   "status": "partial",
   "theorems": [
    "LS.Random.C107_natural",
    "LS.Random.C107_uniform_partial",
    "LS.Random.C107_wide_violated",
    "LS.Random.C107_integer_partial",
    "LS.Random.C107_integer_violated",
    "LS.Random.C107_overflow_violated"
   ],
   "note": "Random<natural>: always in range, uniform up to one for ranges of at most 2^32 numbers (above, numbers are never reached). Random<integer> forgets the lower limit and overflows above 2^31; correct for ranges from zero. Random<double> not modelled."
  },
  {
   "property": "C108",
   "status": "partial",
   "theorems": [
    "LS.MemFile.C108_file_partial",
    "LS.MemFile.C108_back",
    "LS.MemFile.C108_text_partial",
    "LS.MemFile.C108_text_at",
    "LS.MemFile.C108_new_violated",
    "LS.MemFile.C108_read_all_violated",
    "LS.MemFile.C108_append_violated",
    "LS.MemFile.C108_close_violated",
    "LS.MemFile.C108_text_violated"
   ],
   "note": "Refinement of a byte-array file for every sequence of calls whose places end below 2^64, after setAppendMode. Violated: first write reads an uninitialised member; reading naturalNull bytes from inside copies out of bounds; append write leaves a wrong position; closeOutput does not stop writes; MemFileStr with position behind the end."
  },
  {
   "property": "C109",
   "status": "partial",
   "theorems": [
    "LS.SortFilter.C109_bag_partial",
    "LS.SortFilter.C109_sorts",
    "LS.SortFilter.Run.det",
    "LS.SortFilter.C109_zero_violated",
    "LS.SortFilter.C109_copy_violated",
    "LS.SortFilter.C109_clear_violated",
    "LS.SortFilter.C109_assign_violated",
    "LS.SortFilter.C109_flags_partial"
   ],
   "note": "Every sequence of input/output refines a bag with maximal removal, for every limit but zero; feeding and draining gives a sorted permutation. Violated: limit zero, copy constructor (heap size zero, extra item lost), assignment and clear (stale extra item)."
  },
  {
   "property": "C110",
   "status": "partial",
   "theorems": [
    "LS.Lzw.C110_nine",
    "LS.Lzw.C110_trip_partial",
    "LS.Lzw.C110_violated"
   ],
   "note": "Full statement for nine bits; for other limits the negation is proved (C110_violated) and the round trip when no pruning leaves the next code at a power of two or one below (C110_trip_partial)."
  },
  {
   "property": "C111",
   "status": "proved",
   "theorems": [
    "LS.TextIn.C111_reader",
    "LS.TextIn.C111_lines",
    "LS.TextIn.Line.det"
   ],
   "note": "all separators, texts and sequences of calls"
  },
  {
   "property": "C112",
   "status": "partial",
   "theorems": [
    "LS.TextIn.C112_partial",
    "LS.TextIn.C112_char",
    "LS.TextIn.C112_lines_partial",
    "LS.TextIn.C112_missed_violated",
    "LS.TextIn.C112_lost_violated",
    "LS.TextIn.C112_violated"
   ],
   "note": "violated by the code: beginnings of a newline sequence that do not continue; right otherwise and for one character"
  },
  {
   "property": "C113",
   "status": "partial",
   "theorems": [
    "LS.TextIn.C113_partial",
    "LS.TextIn.C113_end_violated",
    "LS.TextIn.C113_stale_violated",
    "LS.TextIn.C113_violated",
    "LS.TextIn.C113_getNext_partial",
    "LS.TextIn.C113_getNext_violated"
   ],
   "note": "violated by the code: getNext at the end of the input, iterators left behind by a commit; right otherwise"
  },
  {
   "property": "C114",
   "status": "partial",
   "theorems": [
    "LS.Merge.C114_iterator",
    "LS.Merge.Gen.det",
    "LS.Merge.C114_concat",
    "LS.Merge.C114_sorted",
    "LS.Merge.C114_union",
    "LS.Merge.C114_sortFn_partial",
    "LS.Merge.C114_null_violated",
    "LS.Merge.C114_violated"
   ],
   "note": "violated by the code: MergeSortFn compares a null pointer; iterator, concatenation and functor of the sorted sets right"
  },
  {
   "property": "C115",
   "status": "partial",
   "theorems": [
    "LS.Http.C115_send",
    "LS.Http.C115_receive_partial",
    "LS.Http.C115_sizes",
    "LS.Http.C115_trip_partial",
    "LS.Http.C115_size_violated",
    "LS.Http.C115_violated",
    "LS.Http.C115_again_violated",
    "LS.Http.C115_reset_violated",
    "LS.Http.C115_cut_violated",
    "LS.Http.C115_trailer_violated",
    "LS.Http.C115_stale_violated",
    "LS.Http.C115_flush_violated"
   ],
   "note": "the sender is right for all calls; the receiver for sizes without small letters inside, no trailer, until the end is reported; otherwise violated"
  },
  {
   "property": "C116",
   "status": "partial",
   "theorems": [
    "LS.Http.C116_direct",
    "LS.Http.C116_limited_partial",
    "LS.Http.C116_reset_partial",
    "LS.Http.C116_end_violated",
    "LS.Http.C116_violated",
    "LS.Http.C116_cut_violated"
   ],
   "note": "until the end: all calls; known length: all calls that do not read at the end; reading at the end and cut bodies violated"
  },
  {
   "property": "C117",
   "status": "partial",
   "theorems": [
    "LS.Http.C117_open_partial",
    "LS.Http.C117_body_partial",
    "LS.Http.C117_chunked_partial",
    "LS.Http.C117_request_partial",
    "LS.Http.C117_case_violated",
    "LS.Http.C117_violated",
    "LS.Http.C117_reason_violated",
    "LS.Http.C117_empty_violated",
    "LS.Http.C117_cut_violated",
    "LS.Http.C117_length_violated"
   ],
   "note": "all well-formed heads with names in the usual letters; letters, missing message, ended input and Content-Length with chunks violated"
  },
  {
   "property": "C118",
   "status": "partial",
   "theorems": [
    "LS.Ini.C118_trim",
    "LS.Ini.C118_parse_partial",
    "LS.Ini.C118_one_violated",
    "LS.Ini.C118_violated",
    "LS.Ini.C118_two_violated",
    "LS.Ini.C118_last_violated",
    "LS.Ini.C118_last",
    "LS.Ini.C118_empty_violated",
    "LS.Ini.C118_quotes_violated",
    "LS.Ini.C118_inner_violated",
    "LS.Ini.C118_open_violated",
    "LS.Ini.C118_escape_violated",
    "LS.Ini.C118_ignore_violated",
    "LS.Ini.C118_include_violated",
    "LS.Ini.C118_wild_violated",
    "LS.Ini.C118_section_error",
    "LS.Ini.C118_separator_error",
    "LS.Ini.C118_quotes_error"
   ],
   "note": "all files of well-formed lines except single-character values behind blanks, error lines one by one; violated by trim, last line, quotes, empty section, escapes"
  },
  {
   "property": "C119",
   "status": "proved",
   "theorems": [
    "LS.Ini.C119_getValue"
   ],
   "note": "all files with names free of zero bytes"
  },
  {
   "property": "C120",
   "status": "partial",
   "theorems": [
    "LS.Ini.C120_enum_partial",
    "LS.Ini.C120_violated",
    "LS.Ini.C120_prefix",
    "LS.Ini.C120_case_violated",
    "LS.Ini.C120_mixed_violated"
   ],
   "note": "without prefix and with sections spelled in one way; the prefix is ignored by the code, and other spellings are not listed"
  },
  {
   "property": "C121",
   "status": "partial",
   "theorems": [
    "LS.MapReduce.C121_reduce_partial",
    "LS.MapReduce.C121_set",
    "LS.MapReduce.C121_violated",
    "LS.MapReduce.C121_take_violated",
    "LS.MapReduce.C121_rotate_violated"
   ],
   "note": "sequences without an erasure after a reduce; erasures after a reduce leave stale results (violated)"
  },
  {
   "property": "C122",
   "status": "partial",
   "theorems": [
    "LS.StrPool.C122_read_partial",
    "LS.StrPool.C122_zero",
    "LS.StrPool.C122_violated",
    "LS.StrPool.C122_writer_violated",
    "LS.StrPool.C122_fromMark_violated",
    "LS.StrPool.C122_fromMark_partial",
    "LS.StrPool.C122_limit"
   ],
   "note": "Violated: add(IIterator&) counts the zero behind the text; writers do not set poolRef until finish, so held strings dangle after a move; fromMark of parts has their zeros inside. Proved: all strings held read as their text for all sequences without these, below 2^32 characters"
  },
  {
   "property": "C123",
   "status": "partial",
   "theorems": [
    "LS.UtfFilter.C123_roundtrip",
    "LS.UtfFilter.C123_decode",
    "LS.UtfFilter.C123_standard_partial",
    "LS.UtfFilter.C123_accepts_partial",
    "LS.UtfFilter.C123_violated",
    "LS.UtfFilter.C123_reject_violated"
   ],
   "note": "Round trip of all wchar_t values, decoding of standard UTF-8 and the exact set of accepted texts are proved; violated: U+07FF and U+FFFF are written in an overlong form, bytes 255 are passed over silently"
  },
  {
   "property": "C124",
   "status": "partial",
   "theorems": [
    "LS.BinFormat.C124_back_partial",
    "LS.BinFormat.C124_truncated_partial",
    "LS.BinFormat.C124_sync",
    "LS.BinFormat.C124_peek",
    "LS.BinFormat.C124_string_violated",
    "LS.BinFormat.C124_violated",
    "LS.BinFormat.C124_null_violated"
   ],
   "note": "Proved for all scripts and values but strings of two or more characters (only half of the characters is stored) and unnamed sections tried after another name, where the code fails; streams cut off and wrong marks are noticed"
  },
  {
   "property": "C125",
   "status": "partial",
   "theorems": [
    "LS.StrCmp.C125_cs",
    "LS.StrCmp.C125_ci_order",
    "LS.StrCmp.C125_ci_partial",
    "LS.StrCmp.C125_ci_weak",
    "LS.StrCmp.C125_ci_violated",
    "LS.StrCmp.C125_ops_partial",
    "LS.StrCmp.C125_le_violated",
    "LS.StrCmp.C125_violated",
    "LS.StrCmp.C125_fromC",
    "LS.StrCmp.C125_cStr",
    "LS.StrCmp.C125_cStrW_partial",
    "LS.StrCmp.C125_cStrW_violated"
   ],
   "note": "Proved for StrCmpCS, for StrCmpCI of strings without zeros (with zeros the code ignores what is behind), for all operators with literals but <= (done with >=), for cStr of narrow strings; the code fails for <=, for zeros, and for cStr of wide strings"
  },
  {
   "property": "C126",
   "status": "proved",
   "theorems": [
    "LS.NamedEnum.C126_find",
    "LS.NamedEnum.C126_name",
    "LS.NamedEnum.C126_inverse",
    "LS.NamedEnum.C126_toString"
   ],
   "note": "All arrays of definitions with names shorter than 2^64 characters"
  },
  {
   "property": "C127",
   "status": "partial",
   "theorems": [
    "LS.LockPair.C127_both",
    "LS.LockPair.C127_exclusive",
    "LS.LockPair.C127_exclusive_one",
    "LS.LockPair.C127_waiting",
    "LS.LockPair.C127_no_deadlock",
    "LS.LockPair.C127_same",
    "LS.LockPair.C127_alone",
    "LS.LockPair.C127_livelock_violated"
   ],
   "note": "Ownership, exclusion, no deadlock proved for all interleavings; progress fails: two threads may disturb each other forever, and a pair of one lock twice is never acquired."
  },
  {
   "property": "C128",
   "status": "partial",
   "theorems": [
    "LS.CmdLine.C128_next",
    "LS.CmdLine.C128_items",
    "LS.CmdLine.C128_end",
    "LS.CmdLine.C128_text",
    "LS.CmdLine.C128_number_partial",
    "LS.CmdLine.C128_number_format",
    "LS.CmdLine.C128_number_violated",
    "LS.CmdLine.C128_remain_partial",
    "LS.CmdLine.C128_remain_violated",
    "LS.CmdLine.C128_empty_violated",
    "LS.CmdLine.C128_order"
   ],
   "note": "Reading, texts, order proved from all reachable positions; items of whole arguments overlap with C105. Items, texts, order proved. Fails: getRemainArgs among short switches repeats switches, getNextNumber takes a text that only begins with a number, an empty argument is read before its length is looked at."
  },
  {
   "property": "C129",
   "status": "partial",
   "theorems": [
    "LS.RingList.C129_add",
    "LS.RingList.C129_insertAfter",
    "LS.RingList.C129_insertBefore",
    "LS.RingList.C129_erase",
    "LS.RingList.C129_erase_end",
    "LS.RingList.C129_clear",
    "LS.RingList.C129_size",
    "LS.RingList.C129_memory",
    "LS.RingList.C129_read",
    "LS.RingList.C129_distance",
    "LS.RingList.C129_distance_end",
    "LS.RingList.C129_seek",
    "LS.RingList.C129_seek_end",
    "LS.RingList.C129_places",
    "LS.RingList.C129_oneItem_partial",
    "LS.RingList.C129_oneItem_violated",
    "LS.RingList.C129_getRemain_violated",
    "LS.RingList.C129_getRemain_ub_violated",
    "LS.RingList.C129_detached_violated",
    "LS.RingList.C129_erase_twice_violated"
   ],
   "note": "Operations, reading, memory proved for iterators that stand in the list. Fails: getRemain (both), oneItem of an empty list, iterators on erased items (endless reading; erasing twice spoils the size and the references). Missing: seek, distance and lessThan of backward iterators."
  },
  {
   "property": "C130",
   "status": "partial",
   "theorems": [
    "LS.FilterIter.C130_getNext",
    "LS.FilterIter.C130_peek",
    "LS.FilterIter.C130_read",
    "LS.FilterIter.C130_hasItems_no",
    "LS.FilterIter.C130_hasItems_partial",
    "LS.FilterIter.C130_blockRead_partial",
    "LS.FilterIter.C130_write",
    "LS.FilterIter.C130_flush",
    "LS.FilterIter.C130_write_all",
    "LS.FilterIter.C130_blockWrite_const",
    "LS.FilterIter.C130_blockWrite_partial",
    "LS.FilterIter.C130_null",
    "LS.FilterIter.C130_conv_partial",
    "LS.FilterIter.C130_hasItems_no_violated",
    "LS.Placeholder.C130_hasItems_yes_violated",
    "LS.FilterIter.C130_conv_violated",
    "LS.FilterIter.C130_blockRead_peek_violated",
    "LS.FilterIter.C130_blockRead_one_violated",
    "LS.FilterIter.C130_blockRead_all_violated",
    "LS.FilterIter.C130_blockWrite_violated",
    "LS.FilterIter.C130_getRemain_violated",
    "LS.FilterIter.C130_room_violated"
   ],
   "note": "Proved for every filter that implements a machine; hasItems, blockRead, mutable blockWrite and conversion are violated in the cases named."
  },
  {
   "property": "C131",
   "status": "partial",
   "theorems": [
    "LS.Placeholder.C131_read",
    "LS.Placeholder.C131_write",
    "LS.Placeholder.C131_plain",
    "LS.Placeholder.C131_getValue",
    "LS.Placeholder.C131_convert",
    "LS.Placeholder.C131_hasItems_partial",
    "LS.Placeholder.C131_hasItems_violated",
    "LS.Placeholder.C131_open_violated"
   ],
   "note": "Proved for every well-formed template; violated: hasItems before an empty value, silent loss of a placeholder that is not closed."
  },
  {
   "property": "C132",
   "status": "partial",
   "theorems": [
    "LS.Base64Filter.C132_encode",
    "LS.Base64Filter.C132_encode_write",
    "LS.Base64Filter.C132_encode_hasItems",
    "LS.Base64Filter.C132_flush_violated",
    "LS.Base64Filter.C132_getRemain_violated",
    "LS.Base64Filter.C132_decode",
    "LS.Base64Filter.C132_decode_write",
    "LS.Base64Filter.C132_roundtrip",
    "LS.Base64Filter.C132_decode_unpadded_partial",
    "LS.Base64Filter.C132_decode_unpadded_violated",
    "LS.Base64Filter.C132_decode_hasItems_violated",
    "LS.Base64Filter.C132_decode_after_padding_violated",
    "LS.Base64Filter.C132_hex",
    "LS.Base64Filter.C132_hex_table_violated",
    "LS.Base64Filter.C132_hex_odd_violated",
    "LS.Base64Filter.C132_hex_letter_violated"
   ],
   "note": "encoder, padded decoder and hexadecimal decoder proved for every input; violated for unpadded text with two left bytes, hasItems at ignored characters, writes behind flush or padding, getRemain, HexDecoder with a table, odd digits, foreign characters"
  },
  {
   "property": "C133",
   "status": "partial",
   "theorems": [
    "LS.UrlFilter.C133_encode",
    "LS.UrlFilter.C133_encode_hasItems",
    "LS.UrlFilter.C133_encode_write",
    "LS.UrlFilter.C133_decode",
    "LS.UrlFilter.C133_decode_hasItems",
    "LS.UrlFilter.C133_decode_write",
    "LS.UrlFilter.C133_roundtrip",
    "LS.UrlFilter.C133_percent_end_violated",
    "LS.UrlFilter.C133_digit_end_violated",
    "LS.UrlFilter.C133_digits_violated",
    "LS.UrlFilter.C133_flush_violated",
    "LS.UrlFilter.C133_wideToBytes",
    "LS.UrlFilter.C133_wideToBytes_hasItems",
    "LS.UrlFilter.C133_bytesToWide_partial",
    "LS.UrlFilter.C133_bom",
    "LS.UrlFilter.C133_bytesToWide_violated",
    "LS.UrlFilter.C133_bytesToWide_hasItems_violated",
    "LS.UrlFilter.C133_wideToBytes_violated"
   ],
   "note": "proved for every well-formed text and every 16-bit text without the two marks; violated for malformed URLs, marks inside the text, odd bytes, characters above U+FFFF"
  },
  {
   "property": "C134",
   "status": "partial",
   "theorems": [
    "LS.StringCore.C134_strings_partial",
    "LS.StringCore.C134_no_leak_partial",
    "LS.StringCore.C134_space_partial",
    "LS.StringCore.C134_createBuffer_violated",
    "LS.StringCore.C134_createBuffer_end_violated",
    "LS.StringCore.C134_createBuffer_empty_violated",
    "LS.StringCore.C134_open_length_violated",
    "LS.StringCore.C134_open_isolate_violated",
    "LS.StringCore.C134_overfull_violated",
    "LS.StringCore.C134_self_assign_violated",
    "LS.StringCore.C134_pointer_violated",
    "LS.StringCore.C134_size_violated"
   ],
   "note": "All histories that keep the rules; violated: createBuffer of char strings, length and isolation of a string being filled, one character too many, self assignment, pointers kept over a copy, size computed in 64 bits"
  },
  {
   "property": "C135",
   "status": "partial",
   "theorems": [
    "LS.PoolAlloc.C135_blocks_partial",
    "LS.PoolAlloc.C135_no_leak_partial",
    "LS.PoolAlloc.C135_size_partial",
    "LS.PoolAlloc.C135_size_one_thread",
    "LS.PoolAlloc.C135_block_room",
    "LS.PoolAlloc.C135_reuse",
    "LS.PoolAlloc.C135_give_back",
    "LS.PoolAlloc.C135_end",
    "LS.PoolAlloc.C135_not_ended",
    "LS.PoolAlloc.C135_failed_alloc_leaks_violated",
    "LS.PoolAlloc.C135_failed_size_stays_violated",
    "LS.PoolAlloc.C135_race_small_block_violated",
    "LS.PoolAlloc.C135_size_overflow_violated"
   ],
   "note": "blocks, no leak without failed allocations, reuse, end of the pool for all interleavings; sizes when the writes of largestAlloc do not race (always with one thread); the code violates the rest"
  },
  {
   "property": "C136",
   "status": "partial",
   "theorems": [
    "LS.OwnedPtr.C136_one_owner_partial",
    "LS.OwnedPtr.C136_no_ub_partial",
    "LS.OwnedPtr.C136_no_leak_partial",
    "LS.OwnedPtr.C136_take",
    "LS.OwnedPtr.C136_destroy",
    "LS.OwnedPtr.C136_default_violated",
    "LS.OwnedPtr.C136_alloc_violated",
    "LS.OwnedPtr.C136_clear_violated",
    "LS.OwnedPtr.C136_attach_violated",
    "LS.OwnedPtr.C136_address_violated"
   ],
   "note": "OwnedPtr(), OwnedPtr(nil) and OwnedPtr(p,alloc) leave the flag unset; inherited clear/attach ignore the flag; a stale pointer keeps its allocator when an object is made at the same address. Proved for all histories without these."
  },
  {
   "property": "C137",
   "status": "partial",
   "theorems": [
    "LS.BufAlloc.C137_blocks_partial",
    "LS.BufAlloc.C137_refuse_partial",
    "LS.BufAlloc.C137_nested",
    "LS.BufAlloc.C137_aligned_partial",
    "LS.BufAlloc.C137_overflow_violated",
    "LS.BufAlloc.C137_align_violated",
    "LS.BufAlloc.C137_lost_violated"
   ],
   "note": "sizes near 2^64 overflow; blocks are not aligned; memory given back in another order is lost. Proved for sizes that do not overflow, alignment for sizes that are multiples of it, reuse for nested histories."
  },
  {
   "property": "C138",
   "status": "partial",
   "theorems": [
    "LS.SmallMem.C138_blocks_partial",
    "LS.SmallMem.C138_no_leak_partial",
    "LS.SmallMem.C138_room_partial",
    "LS.SmallMem.C138_request",
    "LS.SmallMem.C138_grow_partial",
    "LS.SmallMem.C138_grow_violated",
    "LS.SmallMem.C138_ctor_violated",
    "LS.SmallMem.C138_overflow_violated",
    "LS.SmallMem.C138_allocator_violated",
    "LS.SmallMem.C138_self_violated"
   ],
   "note": "move gives a block of a runtime allocator to operator delete; the constructor without count sets nothing; sizeof(T)*count overflows; move loses the allocator. Proved for all histories without these."
  },
  {
   "property": "C139",
   "status": "partial",
   "theorems": [
    "LS.StrToD.C139_result_partial",
    "LS.StrToD.C139_exact_partial",
    "LS.StrToD.C139_close_partial",
    "LS.StrToD.C139_range",
    "LS.StrToD.C139_accepts",
    "LS.StrToD.C139_refuses_partial",
    "LS.StrToD.C139_refuses_violated",
    "LS.StrToD.C139_value_violated",
    "LS.StrToD.C139_overflow_violated"
   ],
   "note": "Value, bound, exception and accepted texts proved for every text with exponents in range; the code accepts the empty text and exponents without digits, counts leading zeros as digits, and zero or small numbers with large exponents give NaN, zero, an exception or int overflow."
  },
  {
   "property": "C140",
   "status": "partial",
   "theorems": [
    "LS.Distrib.C140_delivered",
    "LS.Distrib.C140_not_stopped",
    "LS.Distrib.C140_once",
    "LS.Distrib.C140_order",
    "LS.Distrib.C140_only_listeners",
    "LS.Distrib.C140_ub_partial",
    "LS.Distrib.C140_defined_partial",
    "LS.Distrib.C140_add_violated",
    "LS.Distrib.C140_stages_violated",
    "LS.Distrib.C140_exit_violated",
    "LS.Distrib.C140_current_violated",
    "LS.Distrib.C140_sender_violated",
    "LS.Distrib.C140_exception_violated"
   ],
   "note": "Delivery, once, order, only to listeners proved for every history; reasons of undefined behaviour named and a use without it proved. The code violates the rest: last pointers of both lists after erasing the last item, exit message positions, getCurrent after removal, sender not skipped, exceptions stop one stage only."
  },
  {
   "property": "C141",
   "status": "partial",
   "theorems": [
    "LS.FilePath.C141_fits",
    "LS.FilePath.C141_no_dots",
    "LS.FilePath.C141_cache",
    "LS.FilePath.C141_parts",
    "LS.FilePath.C141_drive",
    "LS.FilePath.C141_directory",
    "LS.FilePath.C141_texts",
    "LS.FilePath.C141_parent_partial",
    "LS.FilePath.C141_stored",
    "LS.FilePath.C141_parent_violated",
    "LS.FilePath.C141_filename_violated",
    "LS.FilePath.C141_relative_violated",
    "LS.FilePath.C141_default_violated",
    "LS.FilePath.C141_windows_violated"
   ],
   "note": "Chains of texts proved for all texts; with parent for proper names only, the code takes back '..' and empty parts. Buffer, parts, directories, drive, cache and stored chains proved. Violated: parent over '..' or an empty part, file name without separator or ending with two dots, relative base, default constructor, windows configuration."
  },
  {
   "property": "C142",
   "status": "partial",
   "theorems": [
    "LS.TextFmt.C142_arguments",
    "LS.TextFmt.C142_limit",
    "LS.TextFmt.C142_output",
    "LS.TextFmt.C142_width",
    "LS.TextFmt.C142_empty_partial",
    "LS.TextFmt.C142_empty_violated",
    "LS.TextFmt.C142_adjacent_violated",
    "LS.TextFmt.C142_conditional_violated",
    "LS.TextFmt.C142_wide_violated",
    "LS.TextFmt.C142_number_violated"
   ],
   "note": "The arguments are kept whole, more than thirty are refused, the pattern gives its parts with the arguments in place, numbers are filled to their width. The code violates the rest: without a pattern only copied arguments are written, %1%2 takes the second percent sign for the end of the first field, the described condition is not implemented, wide characters are cut to eight bits, numbers wrap at 2^64."
  },
  {
   "property": "C143",
   "status": "partial",
   "theorems": [
    "LS.TextPat.C143_match",
    "LS.TextPat.C143_fields",
    "LS.TextPat.C143_number",
    "LS.TextPat.C143_float_partial",
    "LS.TextPat.C143_commands",
    "LS.TextPat.C143_name",
    "LS.TextPat.C143_quoted",
    "LS.TextPat.C143_branch_partial",
    "LS.TextPat.C143_fuel",
    "LS.TextPat.C143_negated_violated",
    "LS.TextPat.C143_search_violated",
    "LS.TextPat.C143_branch_violated",
    "LS.TextPat.C143_skip_violated",
    "LS.TextPat.C143_unterminated_violated",
    "LS.TextPat.C143_escape_violated",
    "LS.TextPat.C143_ignored_violated",
    "LS.TextPat.C143_merge_violated",
    "LS.TextPat.C143_plus_violated",
    "LS.TextPat.C143_assert_violated",
    "LS.TextPat.C143_ssh_violated",
    "LS.TextPat.C143_jump_partial",
    "LS.TextPat.C143_list_end_violated",
    "LS.TextPat.C143_nested",
    "LS.TextPat.C143_point",
    "LS.TextPat.C143_room",
    "LS.TextPat.C143_minus",
    "LS.TextPat.C143_searched",
    "LS.TextPat.C143_short",
    "LS.TextPat.C143_explicit",
    "LS.TextPat.C143_dropped",
    "LS.TextPat.C143_last",
    "LS.TextPat.C143_least",
    "LS.TextPat.C143_digits",
    "LS.TextPat.C143_signs",
    "LS.TextPat.C143_range",
    "LS.TextPat.C143_lists",
    "LS.TextPat.C143_few",
    "LS.TextPat.C143_one",
    "LS.TextPat.C143_eaten",
    "LS.TextPat.C143_begin",
    "LS.TextPat.C143_rangenum",
    "LS.TextPat.C143_fieldend",
    "LS.TextPat.C143_frag",
    "LS.TextPat.C143_field"
   ],
   "note": "The commands and fields read exactly their texts; the code violates the rest (negated sets, searches, second branch, endless skipping, unterminated quotes, escape at the end, fields not merged, plus sign, assertions, the address pattern of the ssh handler)."
  },
  {
   "property": "C144",
   "status": "partial",
   "theorems": [
    "LS.OptVal.C144_step_partial",
    "LS.OptVal.C144_read",
    "LS.OptVal.C144_program_partial",
    "LS.OptVal.C144_inside_violated",
    "LS.OptVal.C144_throw_violated"
   ],
   "note": "the code violates it: an assignment from an object inside of the own value reads it after its destruction, and an assignment whose copy throws has lost the old value; proved for all other operations and programs"
  },
  {
   "property": "C145",
   "status": "partial",
   "theorems": [
    "LS.FdSelect.C145_registry",
    "LS.FdSelect.C145_set_keeps",
    "LS.FdSelect.C145_enable",
    "LS.FdSelect.C145_masks",
    "LS.FdSelect.C145_poll",
    "LS.FdSelect.C145_empty",
    "LS.FdSelect.C145_waits",
    "LS.FdSelect.C145_next_partial",
    "LS.FdSelect.C145_all_partial",
    "LS.FdSelect.C145_drop",
    "LS.FdSelect.C145_time",
    "LS.FdSelect.C145_event",
    "LS.FdSelect.C145_wake_partial",
    "LS.FdSelect.C145_once",
    "LS.FdSelect.C145_disable",
    "LS.FdSelect.C145_only_wake",
    "LS.FdSelect.C145_fresh_violated",
    "LS.FdSelect.C145_lost_violated",
    "LS.FdSelect.C145_block_violated",
    "LS.FdSelect.C145_reason_violated",
    "LS.FdSelect.C145_close_violated",
    "LS.FdSelect.C145_error_violated"
   ],
   "note": "The registry, the answers of poll, the telling of all ready descriptors and the times hold without wake-ups; with wake-ups the code violates it (write at place -1, lost events, reading of an empty pipe, lost reasons, double close), and an error is told as a timeout."
  },
  {
   "property": "C146",
   "status": "partial",
   "theorems": [
    "LS.QueueExec.C146_order",
    "LS.QueueExec.C146_started",
    "LS.QueueExec.C146_take",
    "LS.QueueExec.C146_goes_on",
    "LS.QueueExec.C146_stop",
    "LS.QueueExec.C146_served_partial",
    "LS.QueueExec.C146_gate",
    "LS.QueueExec.C146_join_partial",
    "LS.QueueExec.C146_ends",
    "LS.QueueExec.C146_finish",
    "LS.QueueExec.C146_running_partial",
    "LS.QueueExec.C146_uninit_violated",
    "LS.QueueExec.C146_unused_violated",
    "LS.QueueExec.C146_parallel_violated",
    "LS.QueueExec.C146_cancel_violated",
    "LS.QueueExec.C146_running_violated"
   ],
   "note": "Proved for all interleavings: order, at most one start, what finish does, all threads leave, the gate after the first serving thread, service while no thread is told to finish. The code violates the rest: finishFlag is not initialised, the gate is closed at the start, a capped semaphore leaves an action in the queue beside a waiting thread, a cancelled thread waits instead of leaving, isRunning may stay true."
  },
  {
   "property": "C147",
   "status": "partial",
   "theorems": [
    "LS.Tls.C147_set_partial",
    "LS.Tls.C147_plain",
    "LS.Tls.C147_clear",
    "LS.Tls.C147_end",
    "LS.Tls.C147_once",
    "LS.Tls.C147_refused",
    "LS.Tls.C147_access",
    "LS.Tls.C147_index",
    "LS.Tls.C147_leak_violated",
    "LS.Tls.C147_reuse_violated",
    "LS.Tls.C147_stale_violated",
    "LS.Tls.C147_lost_violated",
    "LS.Tls.C147_endless_violated",
    "LS.Tls.C147_move_violated"
   ],
   "note": "Proved: a map for plain destructors, single deletion and the end of clear for destructors that use only variables with smaller indexes, clear for all destructors when it comes back, the indexes, the refusal of a full block. The code violates the rest: setValue loses a value that is refused, a reused index shows the old value, destructors that grow the table make setVar write into freed memory, destructors that set their own variable lose values or make clear endless, moveTo deletes what it has moved."
  },
  {
   "property": "C148",
   "status": "partial",
   "theorems": [
    "LS.Epoll.C148_set_partial",
    "LS.Epoll.C148_told",
    "LS.Epoll.C148_untold",
    "LS.Epoll.C148_flags",
    "LS.Epoll.C148_due_partial",
    "LS.Epoll.C148_cancel",
    "LS.Epoll.C148_wake",
    "LS.Epoll.C148_order_violated",
    "LS.Epoll.C148_stolen_violated",
    "LS.Epoll.C148_early_violated",
    "LS.Epoll.C148_empty_violated",
    "LS.Epoll.C148_idle_violated",
    "LS.Epoll.C148_high_violated",
    "LS.Epoll.C148_hup_violated",
    "LS.Epoll.C148_failed_violated",
    "LS.Epoll.C148_poll_violated",
    "LS.Epoll.C148_one"
   ],
   "note": "What is registered, told and cancelled is exact for all histories; the code violates the rest: order of timeouts, stolen timeouts, early and false timeouts, high descriptors, hang-ups, failed registrations."
  },
  {
   "property": "C149",
   "status": "partial",
   "theorems": [
    "LS.NetListen.C149_request_partial",
    "LS.NetListen.C149_event_partial",
    "LS.NetListen.C149_quiet_partial",
    "LS.NetListen.C149_armed_partial",
    "LS.NetListen.C149_idle_partial",
    "LS.NetListen.C149_memory_partial",
    "LS.NetListen.C149_sockets_partial",
    "LS.NetListen.C149_dangling_violated",
    "LS.NetListen.C149_expired_violated",
    "LS.NetListen.C149_lost_violated",
    "LS.NetListen.C149_leak_violated",
    "LS.NetListen.C149_hup_violated",
    "LS.NetListen.C149_error_violated",
    "LS.NetListen.C149_stale_violated",
    "LS.NetListen.C149_high_violated"
   ],
   "note": "Proved for descriptors up to 1024 that stay open: requests, events, what the kernel is asked for, memory. With a closed or refused descriptor the code uses released memory, loses calls or leaks; hang-ups and errors call no one."
  },
  {
   "property": "C150",
   "status": "partial",
   "theorems": [
    "LS.Apc.C150_first_partial",
    "LS.Apc.C150_empty_partial",
    "LS.Apc.C150_never_violated",
    "LS.Apc.C150_returns_violated",
    "LS.Apc.C150_second_violated",
    "LS.Apc.C150_stays_violated",
    "LS.Apc.C150_runs_violated",
    "LS.Apc.C150_destroy_violated",
    "LS.Apc.C150_race_violated",
    "LS.Apc.C150_dead_violated"
   ],
   "note": "Holds only for an empty server and its first message; getNext gives its argument and execute compares with 0, so in every interleaving at most one call of execute returns and no message ever runs."
  },
  {
   "property": "C151",
   "status": "partial",
   "theorems": [
    "LS.IterOps.C151_read",
    "LS.IterOps.C151_readall",
    "LS.IterOps.C151_readbad",
    "LS.IterOps.C151_copy",
    "LS.IterOps.C151_accepted",
    "LS.IterOps.C151_write",
    "LS.IterOps.C151_blockcopy_partial",
    "LS.IterOps.C151_zero_violated",
    "LS.IterOps.C151_lost_violated",
    "LS.IterOps.C151_limit",
    "LS.IterOps.C151_remain",
    "LS.IterOps.C151_throws",
    "LS.IterOps.C151_offset_partial",
    "LS.IterOps.C151_offset_violated",
    "LS.IterOps.C151_limcopy",
    "LS.IterOps.C151_limaccepted",
    "LS.IterOps.C151_limwrite",
    "LS.IterOps.C151_accept_violated"
   ],
   "note": "blockCopy always returns zero and loses items the target has no room for; the limiter's offset has no effect on a copied iterator and its canAccept ignores the count"
  },
  {
   "property": "C152",
   "status": "partial",
   "theorems": [
    "LS.Scopes.C152_balanced_partial",
    "LS.Scopes.C152_held",
    "LS.Scopes.C152_recursive",
    "LS.Scopes.C152_flat",
    "LS.Scopes.C152_gone_partial",
    "LS.Scopes.C152_nested",
    "LS.Scopes.C152_unheld",
    "LS.Scopes.C152_try",
    "LS.Scopes.C152_try_violated",
    "LS.Scopes.C152_released_violated",
    "LS.Scopes.C152_unheld_violated"
   ],
   "note": "TrySynchronized waits for the lock and then takes it a second time; SyncReleased releases a recursive lock once only and takes one that was not held"
  },
  {
   "property": "C153",
   "status": "partial",
   "theorems": [
    "LS.Autoflush.C153_flushed_partial",
    "LS.Autoflush.C153_order",
    "LS.Autoflush.C153_line",
    "LS.Autoflush.C153_buffered",
    "LS.Autoflush.C153_once",
    "LS.Autoflush.C153_alone",
    "LS.Autoflush.C153_settings",
    "LS.Autoflush.C153_skip_violated",
    "LS.Autoflush.C153_null_violated",
    "LS.Autoflush.C153_place_violated",
    "LS.Autoflush.C153_again_violated"
   ],
   "note": "skip does not mark the output dirty; NULL as address of the flag is used; a new address forgets what was written; flush does not clear the flag"
  },
  {
   "property": "C154",
   "status": "partial",
   "theorems": [
    "LS.Generator.C154_new",
    "LS.Generator.C154_order_partial",
    "LS.Generator.C154_has_partial",
    "LS.Generator.C154_again",
    "LS.Generator.C154_end",
    "LS.Generator.C154_kept",
    "LS.Generator.C154_half_violated",
    "LS.Generator.C154_drop_violated",
    "LS.Generator.C154_first_violated",
    "LS.Generator.C154_ask_violated",
    "LS.Generator.C154_empty_violated",
    "LS.Generator.C154_count_violated"
   ],
   "note": "getNext and peek wake the function up although an item is ready and drop it: every second item is lost; the count of blockWrite has the wrong sign; empty blocks"
  },
  {
   "property": "C155",
   "status": "partial",
   "theorems": [
    "LS.Variant.C155_value",
    "LS.Variant.C155_ref",
    "LS.Variant.C155_ptr",
    "LS.Variant.C155_convert",
    "LS.Variant.C155_eq",
    "LS.Variant.C155_eqvalue_partial",
    "LS.Variant.C155_isolate_partial",
    "LS.Variant.C155_isolate_violated",
    "LS.Variant.C155_null_violated",
    "LS.Variant.C155_throw_violated"
   ],
   "note": "comparing an empty variant with a value throws, throwing it uses a null pointer, the isolated copy of a reference still refers to the variable"
  },
  {
   "property": "C156",
   "status": "partial",
   "theorems": [
    "LS.MultiLock.C156_order",
    "LS.MultiLock.C156_order_three",
    "LS.MultiLock.C156_progress_partial",
    "LS.MultiLock.C156_free_partial",
    "LS.MultiLock.C156_excl",
    "LS.MultiLock.C156_three_violated",
    "LS.MultiLock.C156_same_violated",
    "LS.MultiLock.C156_try_violated"
   ],
   "note": "the code violates it: MultiLock3 never unlocks, tryLock returns nothing on success, the same lock twice waits for ever; proved for MultiLock2 with different locks"
  },
  {
   "property": "C157",
   "status": "partial",
   "theorems": [
    "LS.IndexMap.C157_unused_partial",
    "LS.IndexMap.C157_different_partial",
    "LS.IndexMap.C157_add",
    "LS.IndexMap.C157_kept",
    "LS.IndexMap.C157_replace_violated",
    "LS.IndexMap.C157_wrap_violated",
    "LS.IndexMap.C157_lazy",
    "LS.IndexMap.C157_again",
    "LS.IndexMap.C157_absent",
    "LS.IndexMap.C157_lazy_violated",
    "LS.IndexMap.C157_clear_violated"
   ],
   "note": "the code violates it: replace does not count numbers, numbers wrap, the erased object is shown by constant maps only; proved without these"
  },
  {
   "property": "C158",
   "status": "partial",
   "theorems": [
    "LS.Multibyte.C158_read",
    "LS.Multibyte.C158_write_partial",
    "LS.Multibyte.C158_roundtrip_partial",
    "LS.Multibyte.C158_cur",
    "LS.Multibyte.C158_refuse",
    "LS.Multibyte.C158_anew"
   ],
   "note": "reading is proved; writing does not compile as it is (setValue with two arguments) and is proved for what is meant"
  },
  {
   "property": "C159",
   "status": "partial",
   "theorems": [
    "LS.InBlock.C159_add_partial",
    "LS.InBlock.C159_resize",
    "LS.InBlock.C159_table",
    "LS.InBlock.C159_reserve",
    "LS.InBlock.C159_inside_partial",
    "LS.InBlock.C159_units_violated",
    "LS.InBlock.C159_wrap_violated"
   ],
   "note": "the code violates it: items compared with bytes, great counts wrap and write outside; proved for counts in range"
  },
  {
   "property": "C160",
   "status": "partial",
   "theorems": [
    "LS.Counters.C160_items",
    "LS.Counters.C160_count_partial",
    "LS.Counters.C160_same",
    "LS.Counters.C160_all_violated",
    "LS.Counters.C160_written_partial",
    "LS.Counters.C160_writeall_violated"
   ],
   "note": "the code violates it: items of a block that ends with an exception are not counted; proved for blocks that need not be full"
  }
 ]
}
