{"id": "C01", "title": "Key-value commands behave like one shared map", "statement": "Every reply to set, add, replace, append, prepend, cas, get/gets, delete and incr/decr is the reply a simple map from key to (data, flags, expiry, unique id) would give: a get returns exactly the bytes and flags of the latest successful store of that key, or a miss if there was none, it was deleted, it expired or it was flushed. Entries that have expired but still sit in the table are never observable.", "quantifier": "for every sequence of these commands on any keys and data, at any clock readings that never go backwards, from the empty cache", "why_tests_cant": "tests run a handful of short scripts; the lazily removed dead entries make the reply depend on the whole history, which is unbounded", "anchors": ["engines/default/items.c:do_item_store_set,do_item_store_add,do_item_store_replace,do_item_store_cas,do_item_store_attach,do_add_delta,item_arithmetic,item_delete", "engines/default/item_base.c:do_item_get,do_item_link,do_item_unlink,do_item_replace,do_item_isvalid"]}
{"id": "C02", "title": "cas never overwrites an unseen update", "statement": "A cas that succeeds with unique id u replaces exactly the value that the gets returning u delivered: no other successful modification of that key happened in between, not even delete followed by an identical store. Unique ids handed out are never reused.", "quantifier": "for every history of commands by any number of clients between the gets and the cas, in every interleaving allowed by the cache lock", "why_tests_cant": "the ABA pattern needs particular interleavings and unbounded histories", "anchors": ["engines/default/items.c:do_item_store_cas", "engines/default/item_base.c:get_cas_id,do_item_link,do_item_replace"]}
{"id": "C03", "title": "Expiry is exact", "statement": "An item stored with expiry time T is served at every clock reading before T (unless removed by a command) and at no clock reading at or after T; reading or touching it does not extend T; expiry 0 never expires. The command-line expiry argument is mapped to T as documented: 0 never, negative already expired (-1 sticky), up to 30 days relative, larger absolute, past absolute already expired.", "quantifier": "for every expiry argument, start time, clock trajectory and interleaving of reads with other commands", "why_tests_cant": "tests sleep for a second or two around one expiry; boundary values, wrap and histories cannot be enumerated", "anchors": ["memcached.c:realtime", "engines/default/item_base.c:do_item_isvalid,do_item_get,do_item_update"]}
{"id": "C04", "title": "flush_all removes everything older and nothing newer", "statement": "After a flush_all without delay is acknowledged, no item stored before it is ever returned, and every item stored after it (even within the same second) is unaffected by it.", "quantifier": "for every history of stores, reads and clock ticks before and after the flush", "why_tests_cant": "depends on same-second stores, on access-time bumps and on the LRU list being time ordered in every reachable state", "anchors": ["engines/default/items.c:do_item_flush_expired", "engines/default/item_base.c:do_item_isvalid,item_link_q,do_item_update"]}
{"id": "C05", "title": "Flushed data stays gone", "statement": "Once an item has been made invisible by a flush, it stays invisible until its key is stored again, whatever further flush commands (immediate, delayed, per prefix) are issued.", "quantifier": "for every sequence of flush commands with any delays, stores, reads and clock readings after the flush", "why_tests_cant": "needs particular sequences of two flushes with a delayed one and an untouched item in between", "anchors": ["engines/default/items.c:do_item_flush_expired", "engines/default/item_base.c:do_item_isvalid", "memcached.c:process_flush_command"]}
{"id": "C06", "title": "incr and decr are exact 64-bit counters", "statement": "incr on a numeric item stores and returns (old+delta) mod 2^64 in decimal; decr stores and returns max(old-delta,0); a non-numeric item is refused and left unchanged; the stored digits read back as the same number.", "quantifier": "for every 64-bit old value and delta and every item content", "why_tests_cant": "2^128 combinations; wrap and clamp boundaries", "anchors": ["engines/default/items.c:do_add_delta,item_arithmetic", "util.c:safe_strtoull"]}
{"id": "C07", "title": "append and prepend concatenate", "statement": "append (prepend) succeeds exactly when the key holds a key-value item and the optional unique id matches; the new data is old||new (new||old) byte for byte with one trailing CRLF, flags and expiry are kept.", "quantifier": "for all byte strings and flags and all item states", "why_tests_cant": "arbitrary binary contents and lengths", "anchors": ["engines/default/items.c:do_item_store_attach"]}
{"id": "C08", "title": "An item's memory is released exactly once and never while in use", "statement": "While any client request or the table holds an item, its memory is not returned to the allocator; after it is unlinked and the last holder releases it, it is returned exactly once.", "quantifier": "for every interleaving of link, get, release, unlink and replace operations on any items, with reference counts crossing the 16-bit boundary", "why_tests_cant": "use-after-free needs particular interleavings; counter chunking only shows beyond 65535 simultaneous references", "anchors": ["engines/default/item_base.c:ITEM_REFCOUNT_INCR,ITEM_REFCOUNT_DECR,do_item_release,do_item_unlink,do_item_free"]}
{"id": "C09", "title": "Every command gives back the references it takes", "statement": "After a command has been answered (and the client released what it was given), the number of outstanding references of every item is what it was before the command.", "quantifier": "for every command, every item type it may hit and every error path", "why_tests_cant": "a leak on a rarely taken error path is invisible to functional tests", "anchors": ["engines/default/items.c:item_arithmetic,item_delete,item_store"]}
{"id": "C10", "title": "List commands behave like operations on a sequence", "statement": "lop insert/delete/get with any positive or negative indexes and ranges return and leave exactly what the same slice operations on a plain sequence give; ranges given in descending order are returned in descending order; deleting the last element with drop removes the key.", "quantifier": "for every sequence of list commands with arbitrary 32-bit indexes", "why_tests_cant": "unbounded histories and index arithmetic with sign changes and clipping", "anchors": ["engines/default/coll_list.c:do_list_elem_find,do_list_elem_link,do_list_elem_unlink,do_list_elem_delete,do_list_elem_get,do_list_elem_insert,adjust_list_range"]}
{"id": "C11", "title": "List overflow policy is honoured", "statement": "A list never holds more than its maximum count. When full, with overflow action error the insert is refused and nothing changes; with a trim action exactly one element is dropped: the last one for an insert at the head, the first one for an insert at the tail, and otherwise the head (head_trim) or the last element (tail_trim). The new element is never the one dropped and all others keep their order.", "quantifier": "for every list state, maximum, overflow action and insert index", "why_tests_cant": "interaction of index sign, adjustment after trimming and the boundary of a full list", "anchors": ["engines/default/coll_list.c:do_list_elem_insert,do_list_real_maxcount"]}
{"id": "C12", "title": "Set commands behave like a finite set", "statement": "sop insert/delete/exist answer exactly like a mathematical set of byte strings with the configured maximum count; no element is lost or duplicated when the internal hash tree grows or shrinks.", "quantifier": "for every sequence of inserts and deletes of any values, including adversarial values with colliding hashes", "why_tests_cant": "tree growth and shrink points depend on hash collisions that random tests never produce", "anchors": ["engines/default/coll_set.c:do_set_elem_link,do_set_elem_unlink,do_set_elem_find,do_set_node_link,do_set_node_unlink,do_set_elem_traverse_delete,do_set_elem_insert"]}
{"id": "C13", "title": "Random set reads return distinct members in the right number", "statement": "sop get with count n on a set of m elements returns exactly min(n,m) pairwise distinct elements, each a member (all of them for n=0); with delete exactly those elements are removed.", "quantifier": "for every set, every n and every outcome of the random number generator", "why_tests_cant": "randomised result; the property must hold for every random stream", "anchors": ["engines/default/coll_set.c:do_set_elem_traverse_sampling,do_set_elem_traverse_rand,do_set_elem_at_offset,do_set_elem_traverse_dfs,do_set_elem_get"]}
{"id": "C14", "title": "Map commands behave like a finite map", "statement": "mop insert/upsert/update/get/delete answer exactly like a map from field to value with the configured maximum count, for single fields, field lists and whole-map requests.", "quantifier": "for every sequence of map commands with any fields and values, including colliding hashes", "why_tests_cant": "same as for sets: unbounded histories, hash-collision dependent restructuring", "anchors": ["engines/default/coll_map.c:do_map_elem_link,do_map_elem_unlink,do_map_elem_find,do_map_elem_update,do_map_elem_replace,do_map_elem_traverse_dfs_byfield,do_map_elem_traverse_dfs_bycnt,do_map_elem_insert"]}
{"id": "C15", "title": "mop get never writes outside its result array", "statement": "The number of elements collected by one mop get is at most the capacity of the array allocated for them.", "quantifier": "for every map and every field list a client can send, including repeated fields", "why_tests_cant": "the overflow needs a field list longer than the map with repetitions and shows only as heap corruption", "anchors": ["engines/default/coll_map.c:map_elem_get,do_map_elem_get"]}
{"id": "C16", "title": "Bkey order is a strict total order and the six comparisons agree with it", "statement": "Both bkey kinds (unsigned 64-bit and byte string up to 31 bytes) are strictly totally ordered by the server's comparison; equal, not-equal, less, less-or-equal, greater, greater-or-equal used by eflag filters all agree with that order.", "quantifier": "for all pairs and triples of bkeys of each kind", "why_tests_cant": "2^248 keys; transitivity is over triples", "anchors": ["engines/default/coll_btree.c:UINT64_COMP,BINARY_COMP,BKEY_COMP,BKEY_ISEQ,BKEY_ISLT"]}
{"id": "C17", "title": "Element filters select exactly the documented elements", "statement": "An eflag filter keeps an element iff its eflag covers the tested slice and the slice, after the optional bitwise operation with the operand, compares as requested against (one of) the given values; an element whose eflag does not cover the slice is kept by NE only; reads outside the operands never happen.", "quantifier": "for every eflag, offset, operator, operand and value list accepted by the protocol parser", "why_tests_cant": "byte-level semantics over all lengths and operators", "anchors": ["engines/default/coll_btree.c:do_btree_elem_filter", "memcached.c:get_efilter_from_tokens"]}
{"id": "C18", "title": "B+tree collections behave like a sorted map", "statement": "bop insert/upsert/delete leave the collection containing exactly the elements of a sorted map keyed by bkey after the same commands; inserting an existing bkey without upsert is refused and changes nothing; tree splits, merges and rebalancing never lose, duplicate or reorder an element, and all cached subtree counts stay exact.", "quantifier": "for every sequence of commands of any length on any bkeys (trees of any size up to the depth limit)", "why_tests_cant": "the rebalancing code has many branches that depend on neighbouring nodes' fill levels, reachable only by specific long histories", "anchors": ["engines/default/coll_btree.c:do_btree_find_insposi,do_btree_node_split,do_btree_node_sbalance,do_btree_node_mbalance,do_btree_node_merge,do_btree_elem_link,do_btree_elem_unlink,do_btree_elem_delete"]}
{"id": "C19", "title": "Range reads return the right elements in the right order", "statement": "bop get over a bkey range with filter, offset and count returns exactly the elements of the range that pass the filter, in the direction of the range, skipping offset and stopping at count; bop count returns their number.", "quantifier": "for every collection, range (either direction, single or empty), filter, offset and count", "why_tests_cant": "range ends relative to leaf boundaries and directions give unboundedly many shapes", "anchors": ["engines/default/coll_btree.c:do_btree_elem_get,do_btree_elem_count,do_btree_find_first,do_btree_find_next,do_btree_find_prev"]}
{"id": "C20", "title": "Positions are exact ranks", "statement": "bop position returns the number of elements before the given bkey in the requested order; bop gbp returns exactly the elements at the requested positions; bop pwg returns the position together with the requested neighbours; position and get-by-position are inverse to each other.", "quantifier": "for every collection, order, bkey and position range", "why_tests_cant": "relies on subtree counts being exact in every reachable tree", "anchors": ["engines/default/coll_btree.c:do_btree_posi_from_path,do_btree_posi_find,do_btree_posi_find_with_get,do_btree_elem_get_by_posi"]}
{"id": "C21", "title": "B+tree overflow policy is honoured", "statement": "A b+tree never holds more than its maximum count. When full: error refuses; smallest_trim (largest_trim) drops exactly the smallest (largest) element; a new element that would itself be the trimmed one is refused as out of range. The trimmed mark is set exactly for the non-silent trims.", "quantifier": "for every collection state, maximum, overflow action and inserted bkey", "why_tests_cant": "interaction of boundary elements with the policy in every reachable state", "anchors": ["engines/default/coll_btree.c:do_btree_overflow_check,do_btree_overflow_trim,do_btree_elem_link"]}
{"id": "C22", "title": "The maximum bkey range is honoured", "statement": "With a maximum bkey range R configured, the difference between the largest and the smallest bkey never exceeds R after any insert: elements falling outside are trimmed from the end chosen by the overflow action or the insert is refused.", "quantifier": "for every sequence of inserts with unsigned 64-bit or binary bkeys of any lengths", "why_tests_cant": "needs mixed-length binary keys and boundary distances", "anchors": ["engines/default/coll_btree.c:do_btree_overflow_check,do_btree_overflow_trim,BKEY_DIFF,BINARY_DIFF,BKEY_COMP"]}
{"id": "C23", "title": "A client is told when its range touched trimmed data", "statement": "When a range read covers an area from which elements have been trimmed, the reply says TRIMMED (or the read is refused as out of range when nothing is left): trimming is never silent towards a reader of that area.", "quantifier": "for every collection with a trimmed mark and every range in either direction", "why_tests_cant": "corner cases at range ends", "anchors": ["engines/default/coll_btree.c:do_btree_overlapped_with_trimmed_space,do_btree_elem_get"]}
{"id": "C24", "title": "Sort-merge get returns the globally smallest (largest) elements in order", "statement": "bop smget over a list of keys returns the first count elements behind offset of the merge of all the collections' matching elements in bkey order with ties by key order; unique mode keeps one element per bkey; keys without a readable collection, or whose range begins in trimmed space, are reported as missed, and keys whose range runs into trimmed space as trimmed.", "quantifier": "for every list of keys, collections, ranges, filters and counts", "why_tests_cant": "combinatorial in number and contents of collections", "anchors": ["engines/default/coll_btree.c:do_btree_smget_scan_sort,do_btree_smget_elem_sort,do_btree_smget_scan_sort_old,do_btree_smget_elem_sort_old"]}
{"id": "C25", "title": "The main hash table is a finite map at every moment of an incremental expansion", "statement": "Lookup, insert, replace and delete give the results of a finite map keyed by the full key regardless of how many table doublings have happened, are in progress, or are held up by a running scan.", "quantifier": "for every sequence of operations and every point at which expansion steps happen, for every hash function value", "why_tests_cant": "expansion needs tens of thousands of items and precise timing with scans", "anchors": ["engines/default/assoc.c:assoc_find,assoc_insert,assoc_delete,assoc_replace,redistribute,assoc_expand,CUR_HASH_TABIDX"]}
{"id": "C26", "title": "A background scan visits every resident item exactly once", "statement": "A full scan (used by checkpoint, dump and scrub) delivers every item that stays in the table during the whole scan exactly once and never an item that was absent throughout.", "quantifier": "for every interleaving of scan steps with inserts, deletes, replaces and table expansion", "why_tests_cant": "interleavings with table expansion and deletions at the scan position", "anchors": ["engines/default/assoc.c:assoc_scan_init,assoc_scan_next,_link_scan_placeholder,_unlink_scan_placeholder,redistribute"]}
{"id": "C27", "title": "The SCAN command returns every resident key at least once", "statement": "Following cursors from 0 until 0 is returned again delivers every key that stays in the cache throughout at least once, whatever happens to the hash table size between the calls.", "quantifier": "for every interleaving of the SCAN calls with updates and table expansion", "why_tests_cant": "cursor validity across doublings cannot be enumerated", "anchors": ["engines/default/assoc.c:assoc_scan_direct,reverse_bits,encode_cursor,decode_cursor"]}
{"id": "C28", "title": "SCAN never writes outside its result array", "statement": "The number of entries collected by one SCAN step stays within the array the caller provides.", "quantifier": "for every table or prefix population and requested count", "why_tests_cant": "needs long hash chains", "anchors": ["engines/default/assoc.c:assoc_scan_direct", "engines/default/prefix.c:_prefix_scan_direct", "engines/default/default_engine.c:default_prefixscan,default_keyscan"]}
{"id": "C29", "title": "Prefix statistics equal the sums over resident items", "statement": "For every prefix the reported item count and byte total equal the number and total size of the items currently linked under it, and a prefix is reported exactly while it has items.", "quantifier": "for every history of links, unlinks, replaces and element insertions/removals", "why_tests_cant": "drift accumulates only over long mixed histories", "anchors": ["engines/default/prefix.c:prefix_link,prefix_unlink,prefix_bytes_incr,prefix_bytes_decr,prefix_count", "engines/default/item_base.c:do_item_link,do_item_unlink,do_item_replace"]}
{"id": "C30", "title": "flush_prefix affects exactly the items of that prefix", "statement": "After flush_prefix p without delay, items of prefix p stored before are gone, and items of all other prefixes are untouched.", "quantifier": "for all prefixes, keys and histories", "why_tests_cant": "depends on delimiter handling for arbitrary keys", "anchors": ["engines/default/items.c:do_item_flush_expired", "engines/default/prefix.c:prefix_isincluded,prefix_isvalid,prefix_link"]}
{"id": "C31", "title": "Every log record reads back as what was written", "statement": "Each command log record, written to bytes and read back by recovery, denotes the same operation with the same key, value and attributes, and its declared length is the number of bytes it occupies.", "quantifier": "for every record type and all field values the server can produce", "why_tests_cant": "byte layouts with alignment padding for all lengths", "anchors": ["engines/default/cmdlogrec.c:lrec_*_write,lrec_*_redo,lrec_construct_*", "engines/default/cmdlogrec.h"]}
{"id": "C32", "title": "The log buffer is a lossless FIFO", "statement": "At every moment the bytes of the command log file followed by the bytes still buffered are exactly the concatenation of all records written so far, in order; a record is never overwritten before it reached the file.", "quantifier": "for every interleaving of record writes of any sizes with flusher steps, through any number of wrap-arounds of the ring buffer", "why_tests_cant": "wrap-around and interleaving dependent", "anchors": ["engines/default/cmdlogbuf.c:do_log_buff_write,do_log_buff_flush"]}
{"id": "C33", "title": "In synchronous logging an acknowledged update is on disk", "statement": "When a client gets the success reply of an update in synchronous logging mode, all bytes of the update's log records have been written and fsynced.", "quantifier": "for every record size and every interleaving of writers, flusher and fsync thread", "why_tests_cant": "a crash at the wrong instant after a specific interleaving; a test cannot observe the missing bytes", "anchors": ["engines/default/cmdlogmgr.c:cmdlog_waiter_end,do_cmdlog_get_commit_waiter", "engines/default/cmdlogbuf.c:do_log_buff_write,do_log_buff_flush,cmdlog_buff_flush_request", "engines/default/cmdlogfile.c:cmdlog_file_sync"]}
{"id": "C34", "title": "Recovery after a crash restores a prefix of the history", "statement": "If the server crashes with the log file cut at an arbitrary byte, recovery succeeds and rebuilds exactly the state after some prefix of the logged operations containing every operation whose record is completely in the file; a multi-element operation is restored entirely or not at all.", "quantifier": "for every history and every byte position at which the file is cut", "why_tests_cant": "unbounded number of cut points and histories", "anchors": ["engines/default/cmdlogfile.c:cmdlog_file_apply,do_redo_pending_lrec"]}
{"id": "C35", "title": "Recovery keeps working after repeated crashes", "statement": "After a crash, recovery, further acknowledged updates and another crash, recovery again restores every acknowledged update.", "quantifier": "for every number of crashes at every byte position", "why_tests_cant": "needs two crashes with the first one at a particular place", "anchors": ["engines/default/cmdlogfile.c:cmdlog_file_apply,cmdlog_file_write"]}
{"id": "C36", "title": "Snapshot plus new log equals the live state", "statement": "At the end of a checkpoint, loading the snapshot and then replaying the records of the new command log yields the live state, although clients kept updating during the snapshot.", "quantifier": "for every interleaving of client updates (stores, deletes, element updates, flushes) with the progress of the snapshot scan", "why_tests_cant": "depends on whether the updated item was already scanned, for every update", "anchors": ["engines/default/checkpoint.c:do_checkpoint", "engines/default/chkpt_snapshot.c:do_chkpt_snapshot_action", "engines/default/cmdlogmgr.c:NEED_DUAL_WRITE,cmdlog_set_chkpt_scan", "engines/default/assoc.c:assoc_scan_in_visited_area"]}
{"id": "C37", "title": "Collection elements come back from a snapshot unchanged", "statement": "Every list, set, map and b+tree element written into a snapshot is restored by recovery with the same bytes.", "quantifier": "for every element length and content", "why_tests_cant": "content dependent corruption of longer elements", "anchors": ["engines/default/chkpt_snapshot.c:chkpt_snapshot_file_apply", "engines/default/cmdlogrec.c:lrec_set_item_in_snapshot_elem,lrec_snapshot_elem_link_redo,lrec_get_item_if_collection_link"]}
{"id": "C38", "title": "Cleaning up old checkpoint files never removes the current ones", "statement": "The clean-up of stale snapshot and command log files removes only files that do not belong to the last successful checkpoint.", "quantifier": "for every set of files in the directories and every checkpoint time stamp", "why_tests_cant": "clean-up runs only after an earlier removal failed; time stamps are not exercised by tests", "anchors": ["engines/default/checkpoint.c:do_chkpt_sweep_files", "util.c:getnowdatetime_int"]}
{"id": "C39", "title": "A failed checkpoint does not disturb the next one", "statement": "After a checkpoint attempt fails at any point, the next successful checkpoint switches to a log file whose recorded size is its actual size (no assertion failure).", "quantifier": "for every sequence of failed and successful checkpoints interleaved with updates", "why_tests_cant": "needs an I/O failure in the middle of a checkpoint under update load", "anchors": ["engines/default/cmdlogfile.c:cmdlog_file_close,cmdlog_file_open,cmdlog_file_write,cmdlog_file_complete_dual_write", "engines/default/cmdlogbuf.c:do_log_buff_flush,cmdlog_complete_dual_write"]}
{"id": "C40", "title": "Remaining lifetime survives a restart", "statement": "An item logged with remaining lifetime r at wall-clock time t and recovered at wall-clock time t' expires at the same wall-clock instant; one whose time has passed is not served; never-expiring and sticky items stay so.", "quantifier": "for all clock values of both runs", "why_tests_cant": "two processes with different start times and all boundary values", "anchors": ["engines/default/cmdlogrec.c:CONVERT_ABS_EXPTIME,CONVERT_REL_EXPTIME"]}
{"id": "C41", "title": "A store of an already expired value still supersedes the old one after recovery", "statement": "If a key's last logged update was a store whose lifetime has run out by the time of recovery, the key is absent after recovery (an older value of it does not come back).", "quantifier": "for every history of stores with lifetimes and every recovery time", "why_tests_cant": "needs a particular order of lifetimes around a restart", "anchors": ["engines/default/cmdlogrec.c:lrec_it_link_redo", "engines/default/items.c:item_apply_kv_link", "engines/default/item_base.c:do_item_replace"]}
{"id": "C42", "title": "Number parsing accepts exactly the numbers in range", "statement": "The protocol's number parser accepts a token exactly when it denotes a number of the target type followed by white space or end, and then yields that number; everything out of range is refused.", "quantifier": "for every byte string and each of the five integer parsers", "why_tests_cant": "all strings; overflow boundaries", "anchors": ["util.c:safe_strtoull,safe_strtoll,safe_strtoul,safe_strtol"]}
{"id": "C43", "title": "Pattern matching implements the glob language", "statement": "string matching for SCAN MATCH returns true exactly when the pattern, read with * as any string and ? as any one character, denotes the text.", "quantifier": "for every pattern and text", "why_tests_cant": "single-backup backtracking is easy to get wrong on specific pattern shapes", "anchors": ["util.c:string_pattern_match"]}
{"id": "C44", "title": "Hexadecimal byte strings round-trip", "statement": "Encoding a binary bkey or eflag to its 0x form and decoding it gives the same bytes; decoding accepts exactly the strings that are encodings (either case) of at most the allowed length.", "quantifier": "for every byte string", "why_tests_cant": "all strings up to 31 bytes", "anchors": ["util.c:safe_strtohexa,safe_hexatostr"]}
{"id": "C45", "title": "Parsing an element filter never writes outside the filter structure", "statement": "Parsing the filter tokens of a b+tree command writes only inside the connection's filter structure, for every command line the server accepts.", "quantifier": "for every list of tokens, including value lists longer than the documented maximum of 100 values", "why_tests_cant": "the write happens before the count check and needs 101 values of exactly 31 bytes; the damage shows elsewhere in the connection structure", "anchors": ["memcached.c:get_efilter_from_tokens,get_eflag_from_str"]}
{"id": "C46", "title": "A prefix scan that follows its cursors shows every lasting prefix exactly once", "statement": "Calling the prefix scan with cursor 0 and then with each returned cursor until 0 is returned delivers every prefix that has an item during the whole time exactly once, whatever else happens to other items and prefixes meanwhile.", "quantifier": "for every hash function, every interleaving with other calls, and every requested count", "why_tests_cant": "depends on where the names hash to and on changes between the calls", "anchors": ["engines/default/prefix.c:prefix_scan_direct,_prefix_scan_direct"]}
{"id": "C47", "title": "An extended lifetime survives a restart", "statement": "An item (or collection) whose lifetime was extended with an attribute change or a touch before it expired is served after a restart until its new end, like in the running server.", "quantifier": "for every history of stores and lifetime changes and every time of recovery, in particular one after the original lifetime", "why_tests_cant": "needs a restart after the original lifetime has run out and before the new one has", "anchors": ["engines/default/cmdlogrec.c:lrec_it_link_redo,lrec_it_setattr_redo", "engines/default/items.c:item_apply_setattr_exptime"]}
{"id": "C48", "title": "A clean shutdown keeps every logged update", "statement": "When the server shuts down in an orderly way, every update that was acknowledged before is in the command log file, so that a restart brings it back.", "quantifier": "for every content of the log buffer at shutdown, with synchronous and asynchronous logging", "why_tests_cant": "depends on how much of the log is waiting in the buffer when the threads stop", "anchors": ["engines/default/cmdlogbuf.c:cmdlog_buf_final,do_log_buff_flush", "engines/default/cmdlogmgr.c:cmdlog_mgr_final"]}
{"id": "C49", "title": "An idle server has its log in the file", "statement": "With asynchronous logging, once clients stop sending updates, the flusher brings the log into the file, except for less than one flush unit (32 KB).", "quantifier": "for every history of writes, flushes and checkpoints before the pause", "why_tests_cant": "the state of the queue at the moment of the pause depends on thread timing", "anchors": ["engines/default/cmdlogbuf.c:log_flush_thread_main,do_log_buff_flush"]}
{"id": "C50", "title": "An update never waits for ever for room in the log buffer", "statement": "A client whose record does not fit into the log buffer at the moment gets it in after finitely many flushes.", "quantifier": "for every state of the buffer and every record size the server accepts", "why_tests_cant": "needs particular positions of head and tail and records of half the buffer size", "anchors": ["engines/default/cmdlogbuf.c:do_log_buff_write,do_log_buff_flush"]}
{"id": "C51", "title": "A crash at any moment leaves the last complete checkpoint recoverable", "statement": "Whatever the checkpoint thread is doing when the server dies, the next start chooses the snapshot of the last checkpoint that was completed, and finds its command log.", "quantifier": "for every sequence of checkpoints, failures, crashes between any two file operations, and restarts", "why_tests_cant": "needs a crash between two particular system calls, clocks that go back, or failing removals", "anchors": ["engines/default/checkpoint.c:do_checkpoint,do_chkpt_create_files,do_chkpt_remove_files,chkpt_recovery_analysis", "util.c:getnowdatetime_int"]}
{"id": "C52", "title": "Sort-merge get gives back exactly the item references it takes", "statement": "bop smget leaves the reference count of every item it looks at as it was: it leaks none (the item could never be freed) and gives none back twice (an item in use elsewhere could be freed).", "quantifier": "for every list of keys, collections, ranges, filters, offsets, counts and modes, in any state", "why_tests_cant": "a wrong count shows only when the item is deleted while some other thread holds it", "anchors": ["engines/default/coll_btree.c:do_btree_smget_scan_sort,btree_elem_smget", "engines/default/item_base.c:do_item_release"]}
{"id": "C53", "title": "Every key has exactly one owner, on which all servers agree", "statement": "For any non-empty list of cluster nodes, every key is owned by exactly one node, independent of the order of the list; after any history of reconfigurations a server says that a key is its own exactly if it is the owner, so two servers with the same list never both claim or both deny a key; when nodes join or leave, no key moves between two nodes that are in both lists.", "quantifier": "for every hash function, node list, key, and every history of reconfigurations including failed ones", "why_tests_cant": "ties between hash points, shared node items and reference counts over many reconfigurations", "anchors": ["cluster_config.c:cluster_config_reconfigure,do_nodearray_build_for_replace,do_continuum_build,do_continuum_find,cluster_config_key_is_mine"]}
{"id": "C54", "title": "A look-up during a reconfiguration answers by the old or by the new node list", "statement": "While one thread reconfigures the cluster, every concurrent question whether a key belongs to this server is answered as the old or as the new list of nodes says; in particular a key the server owns under both lists is never denied (a stale scrub would delete it).", "quantifier": "for every interleaving of look-ups with the writes of a reconfiguration", "why_tests_cant": "needs a look-up between two writes of another thread", "anchors": ["cluster_config.c:do_continuum_build,do_hashring_replace,cluster_config_key_is_mine", "engines/default/items.c:do_item_scrub"]}
{"id": "C55", "title": "A reconfiguration never stops the server", "statement": "Whatever nodes join and leave in one change of the node list, the reconfiguration completes or fails cleanly for lack of memory; no assertion fails and no node item is used after it was freed.", "quantifier": "for every sequence of node lists", "why_tests_cant": "depends on the number of free node items left by all earlier changes", "anchors": ["cluster_config.c:do_node_free_list_prepare,do_nodearray_build_for_replace,do_nodearray_release"]}
{"id": "C56", "title": "A well-formed list of keys is understood exactly", "statement": "A list of keys sent with mget, bop mget, bop smget, mop get or mop delete is understood as sent: the same keys, in order, byte for byte, whatever network packets it arrives in, wherever the borders of the server's memory blocks fall, and whatever these blocks held before. The only other answer is an out-of-memory error, and only if the list needs several blocks and the pool cannot give two more for each block after the first.", "quantifier": "for every well-formed list of keys, every division into packets, every block size and content of the blocks", "why_tests_cant": "errors appear only if a key crosses a border in a certain way, or after 128 crossings", "anchors": ["mc_util.c:tokenize_sblocks,tokenize_mblocks,tokenize_mblck,concat_segmented_tokens,check_sblock_tail_string", "memcached.c:conn_nread,ritem_set_first,ritem_set_next"]}
{"id": "C57", "title": "Malformed lists of keys are refused", "statement": "A list with an empty key, a key that is too long, a space inside of a key, another number of keys than promised, or without the final line end is refused as a whole; no keys of it are served.", "quantifier": "for every malformed list, every division into packets, every block size", "why_tests_cant": "whether a list is refused can depend on where the block borders fall", "anchors": ["mc_util.c:tokenize_mblocks,tokenize_mblck,concat_segmented_tokens"]}
{"id": "C58", "title": "No list of keys stops the server", "statement": "Whatever bytes are sent as a list of keys, the server does not fail an assertion and does not read or write outside of its memory blocks.", "quantifier": "for every byte string sent as a key list, every division into packets, every block size", "why_tests_cant": "needs a delimiter at one position of one length out of 32760", "anchors": ["mc_util.c:tokenize_mblocks,tokenize_mblck,concat_segmented_tokens"]}
{"id": "C59", "title": "Memory pieces are private", "statement": "Every piece of memory the small-memory allocator hands out is aligned to 8 bytes and overlaps no other piece in use nor the allocator's own data; what its user stored in it stays until they change it or give it back; and no assertion in the allocator fails, as long as users stay inside their pieces, give back what they got with the size they asked for, and never zero the first word.", "quantifier": "for every accepted configuration and every sequence of allocations, releases, accesses, pages taken by other slab classes and changes of the memory limit, of any length", "why_tests_cant": "overlaps need rare sequences of splitting and joining slots at block borders; tests see only few layouts", "anchors": ["engines/default/slabs.c:do_smmgr_alloc,do_smmgr_free,do_smmgr_free_slot_link,do_smmgr_free_slot_unlink,do_smmgr_blck_alloc,do_smmgr_blck_free,do_slabs_alloc,do_slabs_newslab,do_smmgr_init"]}
{"id": "C60", "title": "Memory given back can be used again, and requests are refused only if there is none", "statement": "A request for small memory is refused only if no further page can be had (the limit is reached and the reserve used up, or the system has none) and no stretch of twice its size lies free between the pieces of any block. No block is kept without a piece in it; when all pieces are given back, all blocks are free.", "quantifier": "for every server with a largest item size of 256 KB or more, every sequence of events, every state reached", "why_tests_cant": "fragmentation and leaks show only after long histories", "anchors": ["engines/default/slabs.c:do_smmgr_alloc,do_smmgr_free,do_smmgr_blck_alloc,do_smmgr_blck_free,do_slabs_newslab"]}
{"id": "C61", "title": "The memory statistics are right", "statement": "The statistics of small memory agree with the pieces in use: the space used is their sum (each with 4 bytes overhead, rounded up), used and free space add up to that of the blocks in use, the number of classes used and the least and greatest one are those of the pieces, and the class and space of the largest pieces that make up at least one per cent are theirs.", "quantifier": "for every server with a largest item size of 256 KB or more, every sequence of events, every state reached", "why_tests_cant": "counters drift only through rare paths", "anchors": ["engines/default/slabs.c:do_smmgr_used_slot_init,do_smmgr_used_slot_list_add,do_smmgr_used_slot_list_del,do_smmgr_01pct_check_and_move_right,do_smmgr_01pct_check_and_move_left,do_smmgr_memid"]}
{"id": "C62", "title": "The space that can still be had is counted right", "statement": "Once the reserve for small memory is fixed, the count of free block space, on which the space shortage level and with it evictions depend, is the size of the blocks that are free or in pages still kept in reserve; before it is 0.", "quantifier": "for every server with a largest item size of 256 KB or more, every sequence of events, every state reached", "why_tests_cant": "goes wrong only with more than 4 GB of small memory", "anchors": ["engines/default/slabs.c:do_slabs_newslab,do_smmgr_blck_alloc,do_smmgr_blck_free,do_slabs_set_memlimit"]}
{"id": "C63", "title": "Packet boundaries do not matter", "statement": "What the server does for a client depends on the bytes the client sends only, not on the packets they arrive in nor on how much each read returns: every command line is handled once, every announced data block is handed over whole, no byte is used twice or lost.", "quantifier": "for every behaviour of the command handlers, every stream of bytes, every way to cut it, every sequence of read results", "why_tests_cant": "the ways to cut a stream and the buffer states between reads are unbounded; tests send whole commands", "anchors": ["memcached.c:try_read_command_ascii,try_read_network,complete_nread,conn_nread,conn_swallow,event_handler"]}
{"id": "C64", "title": "Data is never taken for a command", "statement": "Of well-formed requests, the server takes exactly the command lines for commands: the data block of a command is never executed, whether the command is carried out, refused, dropped for want of memory or left out of a failed pipeline.", "quantifier": "for every interpretation of command lines and engine behaviour, every sequence of well-formed requests in any pieces", "why_tests_cant": "needs refusals at every place and all following data; a data block that is a command is a security hole that tests with benign data do not see", "anchors": ["memcached.c:process_command_ascii,out_string,conn_swallow,process_mop_command,process_mget_command,ascii_response_handler"]}
{"id": "C65", "title": "A pipeline has one answer", "statement": "The commands of a pipeline are carried out in order up to the first one that fails, at most 500 of them and 20000 bytes of answers; the answer is one, with the count, the answers in order and the way it ended; nothing is carried out after the failure, and the connection is then ready for the next command.", "quantifier": "for every engine behaviour, every pipeline of well-formed requests of any length in any pieces", "why_tests_cant": "limits of count and size meet failures at any place, and all ways to cut the stream", "anchors": ["memcached.c:pipe_response_save,pipe_response_done,pipe_state_clear,out_string,process_command_ascii"]}
{"id": "C66", "title": "What is sent is the responses", "statement": "Over TCP the client receives the bytes of the responses in order, without gap or repetition, however little each write takes; the server's lists of pieces grow and shrink without a stale pointer being used.", "quantifier": "for every sequence of responses in any pieces, every sequence of write results", "why_tests_cant": "partial writes at every byte and lists growing at every piece cannot be enumerated", "anchors": ["memcached.c:add_iov,add_msghdr,ensure_iov_space,transmit,conn_shrink"]}
{"id": "C67", "title": "Reading stays inside the input buffer", "statement": "Whatever bytes a client sends in whatever pieces, the connection's code accesses nothing outside its input buffer.", "quantifier": "for every behaviour of the command handlers, every stream of bytes, every way to cut it", "why_tests_cant": "needs particular bytes at the very end of a full buffer", "anchors": ["memcached.c:try_read_command_ascii,try_read_network"]}
{"id": "C68", "title": "UDP packets put together give the response", "statement": "Over UDP a response is sent as packets of at most 1400 bytes, numbered from 0 and with their total number, whose bodies put together are the response, each sent once.", "quantifier": "for every response in any pieces, every sequence of write results", "why_tests_cant": "packet borders can fall at every byte of every piece", "anchors": ["memcached.c:add_iov,add_msghdr,build_udp_header,transmit"]}
{"id": "C69", "title": "A get command looks up exactly the keys it names", "statement": "A get or gets with any number of keys looks up all the words after its name, in their order, and nothing else; if a key is longer than 16000 bytes, those before it are looked up and the answer is an error.", "quantifier": "for every line, any number of keys and blanks", "why_tests_cant": "lines with more than 29 words are read in several rounds; the borders between rounds depend on the number of words and blanks", "anchors": ["memcached.c:process_get_command", "mc_util.c:tokenize_command"]}
{"id": "C70", "title": "A user's rights are the listed ones", "statement": "A user has the right to a group of commands if and only if its word is in the access list of that user, and a user who is not listed has no rights, whatever the memory held before.", "quantifier": "for every access list, user and earlier content of memory", "why_tests_cant": "depends on bytes left on the stack", "anchors": ["sasl_defs.c:arcus_sasl_authz", "sasl_auxprop.c:arcus_getdata"]}
{"id": "C71", "title": "Only permitted commands are carried out", "statement": "Whatever happened on a connection before (authentications that succeeded, failed or were not finished, changes of the access list), a command line is carried out exactly as without rights if the last confirmed user has a word for it in their list or all its keys begin with arcus:, and refused otherwise.", "quantifier": "for every history of a connection and every line", "why_tests_cant": "all commands with all histories and all keys", "anchors": ["memcached.c:check_ascii_auth,process_sasl_auth_complete,process_command_ascii,process_get_command,init_sasl_conn"]}
{"id": "C72", "title": "The binary protocol obeys the same rights", "statement": "By the binary protocol, too, nothing is carried out for which the last confirmed user has no right.", "quantifier": "for every history of a connection and every binary request", "why_tests_cant": "all commands with all histories", "anchors": ["memcached.c:authenticated,dispatch_bin_command,process_bin_complete_sasl_auth"]}
{"id": "C73", "title": "The data of a refused command is not carried out", "statement": "Also when commands are refused for want of rights, exactly the command lines of well-formed requests are taken for commands.", "quantifier": "for every sequence of well-formed requests, in any pieces", "why_tests_cant": "any data and any borders of packets", "anchors": ["memcached.c:check_ascii_auth,process_update_command,process_lop_command,process_bop_command"]}
{"id": "C74", "title": "Authentication data are taken as announced", "statement": "The bytes that sasl auth announces are what the library gets, and the next command begins behind them and their line end.", "quantifier": "for every announced length and all data", "why_tests_cant": "lengths near 4 GB", "anchors": ["memcached.c:process_ascii_sasl_auth,process_sasl_auth_complete"]}
{"id": "C75", "title": "No command line stops the server", "statement": "No command line makes an assertion of the dispatcher or of the check of rights fail, whoever sends it.", "quantifier": "for every state of a connection and every line", "why_tests_cant": "all lines with all rights", "anchors": ["memcached.c:check_ascii_auth,process_extension_command,process_command_ascii"]}
{"id": "C76", "title": "Items do not vanish by themselves", "statement": "A get gives the item stored under the key as long as it is good. An item that is stored and good stays so through every call, unless a client deleted, replaced or flushed it or gave it an expire time that is over, or its time came, or the call needed memory while the server evicts. In the last case the item is not a sticky one, nobody is using it (or nobody has touched it for three hours), and the loss is counted in the statistics: no more good items go than are counted as evicted or repaired, and no more are counted as evicted than go. With -M no item is lost to a call for memory.", "quantifier": "for every sequence of calls from start, every allocator below and every stored item", "why_tests_cant": "which items go depends on the order of all calls before and on marks that move through the queues; a test sees a few orders", "anchors": ["engines/default/item_base.c:do_item_mem_alloc,do_item_regain,do_item_evict,do_item_reclaim,do_item_repair,do_item_get", "engines/default/items.c:do_item_flush_expired"]}
{"id": "C77", "title": "The least recently used items go first", "statement": "If an item has been stored or got (with update) more than 60 seconds after another plain item of its size class was last touched, then no request for memory evicts the first one while the second one, which nobody is using, stays.", "quantifier": "for every sequence of calls from start with any calls in between, every allocator and every two items", "why_tests_cant": "the order of the queue is made by all calls before; items leave the queue and come back while in use", "anchors": ["engines/default/item_base.c:do_item_update,do_item_release,item_link_q,item_unlink_q,do_item_mem_alloc"]}
{"id": "C78", "title": "The statistics about items are the truth", "statement": "curr_items and bytes are the number of stored items and the space they take; sticky_items and sticky_bytes are the same for the sticky ones.", "quantifier": "for every sequence of calls from start", "why_tests_cant": "a drift shows only after particular orders of stores, replacements and deletions", "anchors": ["engines/default/item_base.c:do_item_stat_link,do_item_stat_unlink,do_item_stat_replace,do_item_stat_bytes_incr,do_item_stat_bytes_decr"]}
{"id": "C79", "title": "The sticky limit is about the sticky items", "statement": "A store of a sticky item that finds memory is refused if and only if the sticky items that are stored take the sticky limit.", "quantifier": "for every sequence of calls from start and every store", "why_tests_cant": "the number compared is kept by differences over all calls before", "anchors": ["engines/default/item_base.c:do_item_sticky_overflowed,do_item_alloc,do_item_stat_replace"]}
{"id": "C80", "title": "No call runs into a freed item", "statement": "Any call that a caller may make is carried out: whatever has been stored, evicted, flushed, replaced or given back before, no mark and no queue leads to an item that has been freed, and no assertion about the queues fails.", "quantifier": "for every sequence of calls from start, every allocator and every next call", "why_tests_cant": "a mark left on a freed item shows only when the search comes to it later", "anchors": ["engines/default/item_base.c:item_link_q,item_unlink_q,do_item_mem_alloc,do_item_regain,do_item_free", "engines/default/items.c:do_item_flush_expired"]}
{"id": "C81", "title": "A server that evicts refuses only if nothing can go", "statement": "With eviction on, a store of a plain item is refused for want of memory only if all plain items of its size class are in use.", "quantifier": "for every sequence of calls from start, every allocator that lends what has been freed in the class, and every store", "why_tests_cant": "needs many items in use at once", "anchors": ["engines/default/item_base.c:do_item_mem_alloc"]}
{"id": "C82", "title": "Binary requests are taken where the client began them", "statement": "Whatever a client sends over a binary connection and in whatever pieces it arrives, the server takes as requests exactly the byte ranges that the client framed by the body lengths in its headers, in order, leaving none out while the connection is open; bytes of a value are never interpreted as a request.", "quantifier": "for every byte stream, every way of arrival, every engine behaviour and every configuration", "why_tests_cant": "needs bodies that look like requests, in every command and every outcome of the engine", "anchors": ["memcached.c:3440-7768", "memcached.c:6937-7274", "memcached.c:7574-7768", "memcached.c:14229-14347"]}
{"id": "C83", "title": "Every binary request gets its answer, with its opaque", "statement": "Each request on a binary connection is answered as its form demands: exactly one answer; for quiet forms only failures (for quiet gets only what is not a miss); for STAT a sequence ended by an empty one. Every answer carries the operation code and the opaque field of its request and its true body length. A connection is closed for a request only by QUIT, by a refusal that is answered, or because the engine demands it; QUIT in any form closes it without touching the data, and an engine that demands it in a call other than a removal gets it closed without an answer.", "quantifier": "for every run over every byte stream, engine and configuration", "why_tests_cant": "all commands times all engine codes times quiet and loud forms", "anchors": ["memcached.c:3552-3735", "memcached.c:4272-4282", "memcached.c:6937-7274", "include/memcached/protocol_binary.h:127-228"]}
{"id": "C84", "title": "No binary request makes the server access memory outside its buffers", "statement": "Whatever lengths a binary request states, header, extras, key and value are copied only within the buffers that hold them, the read buffer is as large as recorded, and the server does not abort.", "quantifier": "for every byte string, every state of the engine, every size of the read buffer", "why_tests_cant": "lengths are taken from the client in many places; only specific values break an array", "anchors": ["memcached.c:4213-4264", "memcached.c:4000-4006", "memcached.c:5535-5543", "memcached.c:5737-5747", "memcached.c:6776-6788"]}
{"id": "C85", "title": "Declared binary requests are accepted, malformed ones refused before the engine is called", "statement": "A request with the layout that protocol_binary.h declares for its command is not refused as malformed; any other is refused with 'invalid arguments' and the engine is not called.", "quantifier": "for every known command, header and content", "why_tests_cant": "the space of headers per command; tests only send the layouts that their own client produces", "anchors": ["memcached.c:7024-7256", "include/memcached/protocol_binary.h:286-753"]}
{"id": "C86", "title": "What was set over the binary protocol is given back", "statement": "After a SET or SETQ that was not answered with a failure, GET, GETQ, GETK and GETKQ of the same key answer with success, the same flags and the same value byte for byte, GETK with the key; both requests are consumed to their last byte.", "quantifier": "for every key of up to 16000 bytes, every value below 2 GiB, all flags, expiration times, opaque values, and every engine that keeps items", "why_tests_cant": "all lengths and byte values of key and value", "anchors": ["memcached.c:7276-7370", "memcached.c:3836-4031"]}
{"id": "C87", "title": "The answer to LOP_GET and SOP_GET can be taken apart into exactly the elements", "statement": "A client that reads flags, number and lengths from the answer to LOP_GET or SOP_GET and cuts the rest accordingly gets the flags of the item and exactly the element values that the engine gave, in order.", "quantifier": "for every number of elements and all lengths and contents, also empty ones", "why_tests_cant": "all numbers and lengths of elements", "anchors": ["memcached.c:4818-4946", "memcached.c:5279-5404"]}
{"id": "C88", "title": "The status of a binary answer tells the truth", "statement": "If the answer says success, every call that the request made on the engine succeeded; if all succeeded, only success is answered; and a request is carried out at most once.", "quantifier": "for every known command, request, engine and state", "why_tests_cant": "commands times engine codes, with allocation and execution failing separately", "anchors": ["memcached.c:3724-3931", "memcached.c:4550-5875", "memcached.c:6680-6855", "memcached.c:7276-7572"]}
{"id": "C89", "title": "The command log holds the commands in their order, and the left out are counted", "statement": "Whatever the order in which worker threads log commands, the flush thread goes on, the disk fails and the logging is stopped, the files of one logging put together are a beginning of the text made of the lines of some of the commands in the order in which they were logged; the number of commands is the entered count and the number of those left out is the skipped count.", "quantifier": "for every interleaving of any number of writers, the flush thread, start, stop, shutdown, and every outcome of open and write, after any earlier loggings", "why_tests_cant": "the ring buffer wraps after 10 MB and the interleavings with the flush thread are unbounded", "anchors": ["cmdlog.c:135-229", "cmdlog.c:267-348", "cmdlog.c:395-442"]}
{"id": "C90", "title": "Command logging does not stop the server", "statement": "No sequence of commands and no slowness of the disk makes the command log abort the server or touch memory outside of its buffer.", "quantifier": "for every interleaving as in C89", "why_tests_cant": "needs 10 MB of commands while the disk is slow at one certain place of the buffer", "anchors": ["cmdlog.c:161-210", "cmdlog.c:417-441"]}
{"id": "C91", "title": "After a stop, all that was logged before is on disk", "statement": "When command logging has been stopped and the flush thread has ended in the normal way, every line that was accepted before the stop is in the files.", "quantifier": "for every run before the stop and every interleaving after it without a new start", "why_tests_cant": "a race between the look at the buffer and the look at the flag", "anchors": ["cmdlog.c:161-177", "cmdlog.c:350-361"]}
{"id": "C92", "title": "Each logged command is one line", "statement": "The full lines in the files are the commands that were logged, in their order, each with its time and address, in full or cut and marked as cut by two points.", "quantifier": "for all commands and all interleavings", "why_tests_cant": "the fault is at one length", "anchors": ["cmdlog.c:404-415"]}
{"id": "C93", "title": "A command is left out of the log only when the buffer is full", "statement": "While the flush thread runs, a command is left out of the log only if at least the size of the buffer less 800 bytes wait to be written.", "quantifier": "for every reachable state and every command", "why_tests_cant": "the buffer has 10 MB and can be in any rotation", "anchors": ["cmdlog.c:417-441"]}
{"id": "C94", "title": "After a stop the flush thread ends and logging can be started again", "statement": "When command logging has been stopped, the flush thread writes the rest and ends after finitely many steps, whatever the disk does, so that logging can be started again.", "quantifier": "for every reachable state at the stop and every outcome of the disk", "why_tests_cant": "termination; the state from which it fails is reached only at one place of a buffer of 10 MB", "anchors": ["cmdlog.c:147-229", "cmdlog.c:276-286"]}
{"id": "C95", "title": "A client reads in the reply to get, gets, mget, mgets exactly the items that were hit", "statement": "For items of any data (up to 128 MB, in any number of pieces, with line ends and protocol words in it), any flags and cas, and keys without blank and line feed, a client that follows docs/ascii-protocol reads in the reply exactly the key, flags, data and cas of each hit in order, and ends at the end of the reply; the suffix buffers of 24 bytes suffice.", "quantifier": "for all lists of items, all data, all ways of cutting it in pieces, both forms with and without cas, and anything that follows on the connection", "why_tests_cant": "data, flags, cas and lengths are unbounded; the buffers are full only for the largest numbers", "anchors": ["memcached.c:2986-3060", "memcached.c:8619-8675", "memcached.c:3113-3145"]}
{"id": "C96", "title": "A client reads in replies with elements exactly the elements, counts, keys and status", "statement": "In the replies to lop get, sop get, mop get, bop get, bop gbp, bop pwg, bop mget, bop smget (both forms) and to an insertion that returns a trimmed element, a client reads exactly the flags, the elements (field or bkey, element flag, data), position and index, the status of each key, the missed and the trimmed keys, and the last line that tells what was done.", "quantifier": "for all lists of elements that may be stored, all keys that the command takes, all combinations of delete, drop, trim and duplicates, whatever the reply buffer held before", "why_tests_cant": "pieces of the reply lie in a buffer that is written while it is referred to; lengths, bkeys and data are unbounded", "anchors": ["memcached.c:2022-2090", "memcached.c:2172-2251", "memcached.c:2380-2577", "memcached.c:2582-2658", "memcached.c:2742-2863", "memcached.c:10550-10618", "memcached.c:10944-11011", "memcached.c:11321-11389", "memcached.c:11524-11589", "memcached.c:11633-11697"]}
{"id": "C97", "title": "The reply buffers are large enough", "statement": "Every reply of the commands of C96 that the server accepts is printed within the buffer whose size was computed beforehand.", "quantifier": "for all accepted numbers of keys, offsets and counts, all elements that may be stored, any keys", "why_tests_cant": "the sizes are exact to a few bytes, and fail only for the longest bkeys and numbers or when 32 bits wrap around", "anchors": ["memcached.c:2035-2036", "memcached.c:2210-2212", "memcached.c:10562-10563", "memcached.c:11334-11335", "memcached.c:11537-11538", "memcached.c:11831-11884", "memcached.c:13066-13099"]}
{"id": "C98", "title": "A client reads in the reply to getattr the attributes asked for with their values", "statement": "For up to 11 names in any order, also repeated, and for none, the reply to getattr is read as these attributes (those of the type of the item if no name is given) in order with their values - type, flags, remaining time, counts, overflow action, readable, bkey range, first and last bkey, trimmed; the buffers suffice.", "quantifier": "for all attributes an item may have and all lists of names the command takes", "why_tests_cant": "values are unbounded, and the buffer is nearly full only for repeated longest bkeys", "anchors": ["memcached.c:13204-13281", "memcached.c:13302-13367"]}
{"id": "C99", "title": "stats topkeys lists exactly the n most recently used keys with their counts", "statement": "With MEMCACHED_TOP_KEYS=n, after any sequence of counted operations the list holds exactly the n most recently used keys (all, if fewer were used), the most recent first; for each of them it holds how often each of the 78 operations was counted since the key last entered the list, and when that was.", "quantifier": "for all n, all sizes of the hash table, all sequences of fewer than 2^31 operations on any keys, all addresses that calloc may give", "why_tests_cant": "the list is a ring of pointers through items that are also in a hash table; orders of use, evictions, re-entries and hash collisions are unbounded", "anchors": ["topkeys.c:80-135", "topkeys.h:65-104", "genhash.c:103-177", "genhash.c:217-250", "memcached.h:514-554"]}
{"id": "C100", "title": "Counting keys never crashes the server and keeps at most n keys in memory", "statement": "Whatever operations are counted, no assertion trips, no freed memory is used, NULL is not dereferenced, and at most n items (and the head) are in memory.", "quantifier": "for all n, all sequences of operations, whatever calloc returns", "why_tests_cant": "needs every reuse of freed addresses, every collision in the hash table and failing allocations", "anchors": ["topkeys.h:66-77", "topkeys.c:10-22", "topkeys.c:106-135"]}
{"id": "C101", "title": "stats topkeys shows the counts as text name=value", "statement": "For each listed key the reply shows the thirteen counts since the key entered the list as name=value separated by commas, followed by ctime, the time since it entered; nothing else is shown.", "quantifier": "for all histories, all counts", "why_tests_cant": "only counts of many digits make the text longer than its buffer", "anchors": ["topkeys.c:169-201", "topkeys.h:63"]}
{"id": "C102", "title": "atime in stats topkeys is the time since the last use", "statement": "The value atime shown for a key is the time since its last counted use.", "quantifier": "for all histories and times of asking", "why_tests_cant": "histories are unbounded; a test that asks right after one use sees the right value", "anchors": ["topkeys.c:10-22", "topkeys.c:114-135", "topkeys.c:181-183"]}
{"id": "C103", "title": "lqdetect show and stats report exactly the long queries of the run", "statement": "After any sequence of lqdetect start, lqdetect stop and commands, lqdetect show lists for each of the ten commands how many of its queries cost at least the threshold while detection ran (until it was stopped, or all ten commands had 20 samples), and as samples the first 20 of these that differ, each on a line with time, client, cost, command, key and arguments that is never cut; lqdetect stats shows the state, the total and the threshold. Nothing overflows.", "quantifier": "for all sequences of fewer than 2^31 events, all keys, arguments, bkeys, clients and times", "why_tests_cant": "the texts share fixed buffers whose sizes only just suffice, and what is a sample depends on the whole history", "anchors": ["lqdetect.c:83-183", "lqdetect.c:185-211", "lqdetect.c:243-344", "lqdetect.c:346-471"]}
{"id": "C104", "title": "Every long query can be found in lqdetect show until its command has 20 samples", "statement": "For each query that was counted as long there is a line in lqdetect show with the same key and the same arguments, unless its command has 20 lines.", "quantifier": "for all sequences of events", "why_tests_cant": "depends on which queries came before, in any order", "anchors": ["lqdetect.c:83-118", "lqdetect.c:128-136"]}
{"id": "C105", "title": "A list query is recorded exactly if it visits as many elements as the threshold", "statement": "While detection runs, lop get, lop delete and lop insert are recorded if and only if they visit at least as many list elements as the threshold says.", "quantifier": "for all lengths of lists, indexes and ranges", "why_tests_cant": "indexes may be out of range, negative or backwards, and the search starts from either end", "anchors": ["lqdetect.c:346-383", "coll_list.c:158-176", "coll_list.c:233-279"]}
{"id": "C106", "title": "Long query detection is safe however threads interleave", "statement": "Whatever worker threads do while detection is started, stopped and shown, no buffer is overrun, and lqdetect show gives at most 20 whole lines for each command, each of a query that was really made.", "quantifier": "for all numbers of threads and all interleavings of their steps", "why_tests_cant": "in_use and threshold are read without the lock; interleavings are unbounded", "anchors": ["lqdetect.c:120-183", "lqdetect.c:243-284", "memcached.c:1667"]}
{"id": "C107", "title": "Only queries that reach the threshold are recorded, however threads interleave", "statement": "Each line of lqdetect show is of a query whose cost is at least the threshold that lqdetect stats shows.", "quantifier": "for all interleavings of threads", "why_tests_cant": "needs a worker between two of its checks while another thread restarts detection", "anchors": ["lqdetect.c:163-183", "lqdetect.c:243-273", "lqdetect.c:346-471"]}
{"id": "C108", "title": "stats detail dump counts every operation under its prefix", "statement": "With details on, a dump lists exactly the prefixes that occurred since the last reset and were not flushed, each once, with the number of operations of each kind and of their hits; a dump of chosen prefixes (<null> for keys without one) lists exactly those of them, in the order asked for.", "quantifier": "for all histories of fewer than 2^63 events (switching, resets, flushes, operations), all hash functions, all delimiters, all lists of prefixes asked for", "why_tests_cant": "histories and hash collisions are unbounded; the exceptions need a first key that begins with a hyphen or ten thousand prefixes", "anchors": ["stats_prefix.c:165-270", "stats_prefix.c:331-446", "stats_prefix.c:451-1172", "stats_prefix.c:1174-1304", "util.c:170-190"]}
{"id": "C109", "title": "stats detail dump never runs over its buffer", "statement": "Whatever was counted before, dumping all prefixes or any chosen ones (the same one many times, too) trips no assertion, stays within the buffer that was allocated for it, and gives lines of the documented form.", "quantifier": "for all histories, all counters of 64 bits, all lists of prefixes asked for", "why_tests_cant": "needs the sizes kept along with the table to agree with it after every history, and counters of 20 digits", "anchors": ["stats_prefix.c:1174-1304", "stats_prefix.c:244-262", "stats_prefix.c:351-382"]}
{"id": "C110", "title": "The memory of the statistics by prefix is bounded", "statement": "At most 10000 prefixes are kept, none twice; details are disabled when the ten thousandth comes and whenever an unknown one comes while there are 10000, which leaves those kept as they are.", "quantifier": "for all histories, all hash functions", "why_tests_cant": "needs ten thousand prefixes and every way to reach them", "anchors": ["stats_prefix.c:170-270"]}
{"id": "C111", "title": "Engine options mean what is written", "statement": "After parsing an option string such as cache_size=2g;use_cas=on each known option has the value written for it (amounts with the suffixes k, m, g, t as powers of 1024, words for switches, escaped stop characters as themselves, white space around names and values ignored), and the result is 0, or 1 if there were unknown options.", "quantifier": "for all lists of options, all texts, all tables of known options", "why_tests_cant": "the grammar is recursive in escapes, blanks and suffixes; tests cover the spellings somebody thought of", "anchors": ["config_parser.c:43-85", "config_parser.c:88-225", "config_parser.h:68-80"]}
{"id": "C112", "title": "Parsing engine options stays within the text and the buffers", "statement": "Whatever text is given, the parser reads only the text and writes only its buffers.", "quantifier": "for all texts, all tables of known options", "why_tests_cant": "out-of-bounds accesses of one byte do not show in tests", "anchors": ["config_parser.c:43-85", "config_parser.c:96-117"]}
{"id": "C113", "title": "An unknown engine option is not passed over in silence", "statement": "If the options on the command line or in a file that they name contain one that does not exist, the result is not 0, so that the engine refuses to start.", "quantifier": "for all lists of options, all texts, all files", "why_tests_cant": "needs every place of the unknown option and all that may follow it", "anchors": ["config_parser.c:92-99", "config_parser.c:219-225", "config_parser.c:227-252", "engines/default/default_engine.c:235-240"]}
{"id": "C114", "title": "A restart goes unnoticed by readers", "statement": "With persistence and synchronous logging, a key that was reported as missing (deleted, evicted, or flushed at once or after a delay) stays missing until it is stored again, also if the server is restarted meanwhile; and without delayed flushes every reply, unique ids included, is that of one map which restarts and checkpoints leave alone.", "quantifier": "for all histories of stores, cas, deletes, gets, flushes with and without delay, evictions, checkpoints and restarts, all keys and prefixes", "why_tests_cant": "needs a restart at the right place of a history with flushes, and a clock that runs past the delay", "anchors": ["engines/default/items.c:436-561", "engines/default/cmdlogmgr.c:542-549", "engines/default/item_clog.c:45-75", "engines/default/items.c:1719-1765", "engines/default/items.c:1890-1901"]}
{"id": "C115", "title": "A cas never overwrites a change its client has not seen, even across restarts", "statement": "If a client was told a unique id for a key, a cas of that key with that id succeeds only if nothing has been stored under the key since, with any number of restarts in between.", "quantifier": "for all histories of stores, cas, deletes, gets, flushes, evictions, checkpoints and restarts", "why_tests_cant": "the ids collide only after a checkpoint, a restart and a certain number of stores", "anchors": ["engines/default/item_base.c:378-383", "engines/default/items.c:1719-1765", "engines/default/items.c:143-175", "engines/default/checkpoint.c:415-447"]}
{"id": "C116", "title": "An answer reports only updates that are on disk, also for pipelines", "statement": "In synchronous logging mode, when the answer to a command or to a pipeline is sent, the log is synced beyond the records of all updates that the answer reports as done.", "quantifier": "for all interleavings of a worker with its connections, other workers, the thread that accepts connections, log sync and group commit; any number of connections, commands and pipelines", "why_tests_cant": "needs a crash between an answer and the next sync, after a pipeline that ends in a certain way, or a race between blocking and notification", "anchors": ["engines/default/cmdlogmgr.c:180-261", "engines/default/cmdlogmgr.c:362-388", "thread.c:439-583", "memcached.c:1437-1568", "memcached.c:7969-7993"]}
{"id": "C117", "title": "A client that waits for the log, or has just connected, is served", "statement": "A connection that the worker has taken out of its event loop, and a new connection handed over to the worker, are not forgotten: whatever the server does by itself, it cannot go on for ever and cannot stop before the worker runs the connection (takes the new connection).", "quantifier": "for all reachable states and all schedules of worker, accepting thread and group commit", "why_tests_cant": "a lost wake-up depends on the order of a write to the pipe, a read from it and the update of the list under the lock", "anchors": ["thread.c:319-388", "thread.c:439-583", "thread.c:607-636", "engines/default/cmdlogmgr.c:180-310"]}
{"id": "C118", "title": "The lists of woken connections stay sound", "statement": "No assertion of the wake-up protocol fails and no list of connections is broken: no connection is twice in the list of a worker or in two lists that share its next pointer, none is closed while it is in a list, none is run that is closed.", "quantifier": "for all interleavings of worker, accepting thread and group commit; any number of connections being opened, blocked, woken and closed", "why_tests_cant": "needs a notification in the middle of the loop over the woken connections, or of a close", "anchors": ["thread.c:372-388", "thread.c:427-437", "thread.c:497-597", "memcached.c:902-945"]}
{"id": "C119", "title": "Setting attributes is all or nothing", "statement": "Whatever the arguments of a setattr command are, also bad, unknown or repeated ones: it is answered; if the answer is not OK, no attribute of the item has changed, and if it is OK, all attributes that were granted have their new values and all others are as before.", "quantifier": "for all items of all types and sizes, all configurations the server accepts, all argument texts of a command line", "why_tests_cant": "the arguments are read, checked and assigned in three loops over a shared record; a partial change needs a certain combination and order of good and bad ones", "anchors": ["memcached.c:13380-13505", "engines/default/items.c:799-880", "engines/default/coll_list.c:632-668", "engines/default/coll_set.c:1051-1085", "engines/default/coll_map.c:1026-1060", "engines/default/coll_btree.c:4294-4383"]}
{"id": "C120", "title": "OK to setattr means that the item has the attributes asked for", "statement": "A setattr command with well-formed arguments is granted exactly if stickiness does not change and the elements there are fit the new limits (count, overflow action of the type, bkey range); then the item has the attributes asked for, with the last value for each, and getattr shows them.", "quantifier": "for all items, all values of the attributes in every notation the server reads, all orders and repetitions", "why_tests_cant": "combinations of type, number of elements, keys, old and new limits; binary and numeric keys of all lengths", "anchors": ["memcached.c:13380-13505", "engines/default/items.c:799-856", "engines/default/coll_list.c:632-668", "engines/default/coll_btree.c:4294-4383"]}
{"id": "C121", "title": "getattr shows attributes of the item and nothing else", "statement": "getattr answers with the values the item has for the attributes named (for all attributes of its type if none is named), or with ATTR_ERROR if the item lacks one of them; it never shows memory that was not written.", "quantifier": "for all items of all types, all lists of names a command line may have", "why_tests_cant": "memory that was not written often holds harmless values, so that a test sees nothing", "anchors": ["memcached.c:13204-13378", "engines/default/items.c:736-797", "engines/default/coll_list.c:612-630", "engines/default/coll_btree.c:4272-4292"]}
{"id": "C122", "title": "A binary setattr request does what the text command does", "statement": "Every binary setattr request is answered, and it is granted under the same conditions and with the same effect as the text command with the same attributes.", "quantifier": "for all request bodies and all items", "why_tests_cant": "a request with a length byte no client library sends is not in any test", "anchors": ["memcached.c:6752-6855", "memcached.c:7120-7126", "include/memcached/protocol_binary.h:488-502"]}
