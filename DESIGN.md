# Design of the formal model of arcus-memcached

Subject: `/repo` (naver/arcus-memcached at the pinned commit), C. Nothing is built or run;
the Lean model is written by reading the source. Build configuration assumed
(include/memcached/types.h 35-42 and configure defaults): SCAN_COMMAND, NESTED_PREFIX,
ENABLE_STICKY_ITEM and ENABLE_PERSISTENCE on.

## Layout

* `lean/Verif/Model/*.lean`  – executable model; every definition cites file and lines.
* `lean/Verif/Spec/*.lean`   – small independent specifications (plain maps, lists, ...), where
  a property needs vocabulary of its own.
* `lean/Verif/Lemmas/*.lean` – helper lemmas and invariants.
* `lean/Verif/Props/*.lean`  – the property theorems only, each with a concrete `example`
  showing that its hypotheses are met by a non-trivial case.
* `MANIFEST.json` – property → theorem names. `seeded/LOG.jsonl` – seeded-bug experiments.

**How to read `seeded/LOG.jsonl`.** An edit counts as "failed" when the build of the property file stops. In most entries it stops in a helper
lemma, and the property theorem itself is not reached (830 of the first 871). This shows that the proof as written does not go through for the
edited model. It does not show that the property theorem is false of it: edits that break no claim stop the build in helper lemmas as well (for
example `unused.early`, `notify.kick3`, `enqueue.front`, `known.null`). `intended_properties` is taken from the claim named by hand for the edit,
not measured. Strong evidence are only entries whose `failed` names a property theorem, survivors (which were inspected), and entries whose
`note` gives a witness: there an input within the hypotheses was run on both models and gave different results.

## Trusted base

* Lean 4.33.0 kernel; axioms allowed: `propext`, `Classical.choice`, `Quot.sound`
  (checked with `#print axioms`). No own axioms, no `sorry`, no `native_decide`, no `bv_decide`.
* The tie between model and C is reading only. Every model definition cites the lines it models
  and says what it simplifies.
* General simplifications, used everywhere unless a definition says otherwise:
  - All engine functions run under the single cache lock (`LOCK_CACHE`), so a command is one
    atomic step of a sequential state machine; interleavings are sequences of such steps.
    Threads that run outside that lock (log flusher, fsync thread, snapshot scan, expansion
    steps) are modelled as separate steps that may be interleaved anywhere.
  - Pointers are replaced by values or by indices/identifiers; memory exhaustion is an explicit
    outcome only where a property is about it.
  - Unbounded `Nat`/`Int` except where a property is about wrap-around or truncation.
  - The hash function is an arbitrary parameter (a function from keys to 32-bit values), so
    theorems hold for every hash function.
* Not modelled: network I/O, protocol text formatting, the event loop, SASL, ZooKeeper, the
  slab allocator's page handling, statistics other than prefix statistics, logging messages.

## Properties: what is modelled and how it is proved

| id | model | proof |
|----|-------|-------|
| C01 | items.c/item_base.c store/get/delete/arithmetic over a table that may contain dead (expired, flushed) entries | refinement to a map; per-command simulation, lifted to all histories by induction |
| C02 | same, with the cas counter | invariant: all ids in the table are ≤ counter and distinct; history theorem |
| C03 | `realtime`, `do_item_isvalid`, `do_item_get`, `do_item_update` | decision theorem + history theorem |
| C04 | per-slab-class LRU queues with access times, `do_item_flush_expired` | invariant "queues sorted by time"; history theorem |
| C05 | same | false in full (a later delayed flush overwrites the flush mark): negation with witness; `_partial` for histories without later delayed flushes |
| C06, C07 | `do_add_delta`, `do_item_store_attach` on byte lists | algebraic theorems using the parser/printer round trip (C42) |
| C08 | refcount/refchunk pair, link flag, free list | invariant over all op sequences, ghost reference total |
| C09 | reference balance of each command | per-command theorem; false for arithmetic on a collection: negation + `_partial` |
| C10, C11 | coll_list.c on a heap of doubly linked elements with next/prev pointers, reference counts and C index arithmetic | separation-style segment invariant, refinement to sequence slices; all client strategies (`Spec/Run.lean`). An insert at index -2^31 negates INT_MIN: excluded, witness `C10_intmin_false` |
| C12, C13 | coll_set.c 16-way hash tree, node by node (chain limit 64, split, dissolve), element heap with reference counts | structural invariant + refinement to a finite set; sampling for every random stream, progress of the rejection loop. False with 71 values colliding in the hash (shift by 28 bits, easily constructed): `C12_collisions_false` |
| C14, C15 | coll_map.c hash tree | as C12; C15 false with repeated fields: `C15_repeated_false` |
| C16 | comparison functions of coll_btree.c on `Nat`/byte lists | order theory by induction |
| C17 | `do_btree_elem_filter` with explicit out-of-bounds outcome | equivalence to a declarative filter |
| C18 | node-level b+tree, levels encoding (sibling links join each level) | structural invariant, refinement to a sorted association list |
| C19, C20, C23 | range scan, count, position functions | equality with list specifications |
| C21, C22 | overflow check/trim | invariant over histories; C22 false for mixed-length binary keys: negation + `_partial` |
| C24, C52 | coll_btree.c 2821-3394, 3512-3649, 4183-4232: scan per key, array sorted by insertion, merge, trim report, item references (`Model/Smget`); commands on several keys (`Model/SmgetDb`) | refinement: what the scans may still yield is a bag that each step keeps; the answer is a piece of its sorted list. Old interface not modelled. False when offset+count wraps, for keys with zero bytes, C52 in unique mode: negations + `_partial` |
| C25–C27 | assoc.c with incremental expansion, scan placeholders and cursors | invariants over interleavings |
| C28 | result-array bounds of both SCAN variants | false for prefix scan: negation + `_partial` |
| C46 | prefix scan cursors (prefix.c 716-765) | the ranges of buckets between cursors are disjoint and cover the table |
| C29, C30 | prefix.c | invariant: counters = sums over linked items |
| C31 | cmdlogrec.c byte layouts | round-trip theorems |
| C32, C49, C50 | cmdlogbuf.c ring buffer, flush queue, dual write and cmdlogfile.c files, threads interleaved at their locks (`Model/LogBuf`) | refinement to two logs of bytes, invariant over all interleavings; drain and progress by measures. C50 false for records of half the buffer: negation |
| C48 | shutdown of the same model | false when more than one request waits: negation + `_partial` |
| C33 | group commit: writer, flusher, fsync, waiter steps | false for a record cut by the 32 KB flush chunk: negation + `_partial` |
| C34 | cmdlogfile.c recovery on a byte list cut anywhere, for any engine; composed with a live model of key-value items (`Model/Recover`) | prefix theorem; what is served after recovery equals what the old server would serve. False for records over 2 MB and logs over 2 GB: negations |
| C35 | crash/append/crash | false: negation + `_partial` |
| C36 | snapshot scan, dual write and recovery for key-value items, clients interleaved with the steps of the scan (`Model/Snapshot`) | invariant per key over all interleavings; false when a flush falls into the scan or a store in front of its first step: negations + `_partial` |
| C37 | read-buffer aliasing of snapshot element records | false for data longer than 10 bytes: negation + `_partial` |
| C38, C51 | checkpoint.c: the two directories, file names, sweep with the 32-bit `atoi`, the checkpoint thread stepped between file operations, crashes, the choice of recovery (`Model/Checkpoint`) | invariant over all runs; C38 false for real time stamps, C51 when the local time goes back: negations + `_partial` |
| C39 | log file size bookkeeping over checkpoints | false after a failed attempt: negation + `_partial` |
| C40 | exptime conversions | arithmetic theorem |
| C41, C47 | live changes, log, recovery with two process clocks | simulation per key; false: negations + `_partial` |
| C45 | `get_efilter_from_tokens` on token lists, arrays with bounds | false with 101 values of 31 bytes: negation + `_partial` |
| C53–C55 | cluster_config.c with node items at addresses, reference counts, the free list, single writes of the continuum between look-ups; the MD5 hash is a parameter (`Model/Cluster`) | refinement to an owner relation on names; C54 false while numbers change, C55 when nodes go and come at once: negations + `_partial` |
| C56–C58 | key lists of mget, bop mget/smget, mop get/delete: reading packets into memory blocks (conn_nread), mc_util.c tokenizing over block borders with the 128 segments, both delimiters (`Model/KeyBlocks`) | the keys found are the pieces of the string, for all block sizes and packets; C57 false for lists longer than promised that are cut at a border, C58 for a lone delimiter in the last block: negations + `_partial` |
| C59–C62 | small-memory allocator of slabs.c: class table, block list, splitting and joining of slots, free and used lists, counters, the 1% class, pages of class 0 with the reserve; memory as a map from addresses to 32-bit words, links of free slots included (`Model/Slabs`) | forward simulation to a set of private pieces; the invariant says that the slots tile the blocks, that the free lists hold the free slots by class, and what each counter counts; C60, C61 follow for all reachable states; C59 false for `-I` below 256 KB, C62 false above 4 GB: negations + `_partial` |
| C63, C67 | input half of a connection: read buffer with its moves and growth, `try_read_network`, line search with the limits for blanks and long lines, `conn_nread` (inside and outside of the buffer), `conn_swallow`, `conn_shrink`; packets and `read` results are inputs, command handlers any function (`Model/ConnIn`) | the stream as a transition system on bytes (`Spec/ConnIn`); invariant: the handled part of the stream plus buffer plus network is the stream; C63 false for lines beyond the limits, C67 false for 64 KB of blanks: negations + `_partial` |
| C64, C65 | what handlers do with data: `noreply`, `pipe`, `swallow`, memory-block reading, refusals, `out_string`, saving and sending of pipeline answers; parsing and engine are any function (`Model/ConnCmd`) | per request lemma, then C63 for the stream; pipelines against a big-step relation; both false for `mop delete` with lists after a pipeline failure, C64 also for refused `mop delete … noreply` and refused lists of 2 GB: negations + `_partial` |
| C66, C68 | output half of a connection: list of pieces with reallocation (pointers carry the generation of the list), messages, `add_iov` for TCP and UDP, `build_udp_header`, `transmit` with partial writes, `conn_shrink` (`Model/ConnOut`) | the groups of pieces of the messages tile the list; what is written plus what is still in the messages is the response |
| C69 | `tokenize_command` with its limit of 29 words, the rounds of `process_get_command` (`Model/Token`) | splitting in rounds gives the same words as splitting at once |
| C70-C72, C75 | access list, `arcus_sasl_authz` on an array with earlier content, `process_sasl_auth_complete`, `check_ascii_auth`, the dispatcher of the text protocol with token counts, flags and keys of all commands, `dispatch_bin_command` (`Model/Auth`; compiled with `ASCII_SASL`, `ENABLE_SASL`, `ENABLE_ZK_INTEGRATION`; the SASL library is an input) | the flags of a connection are those of the last confirmed user, by induction over its history; then command by command |
| C73, C74 | the connection of C64 with a server that checks rights; `process_ascii_sasl_auth` (`Model/AuthData`) | by C64, and C71 for what is refused; arithmetic with 32 bits |
| C42–C44 | util.c | equivalence with declarative grammars, round trips |
| C76, C80 | items with reference counts, the two queues of each class with their marks, hash table as a set, prefix marks, statistics; `do_item_link`, `_unlink`, `_replace`, `_update`, `_get`, `_release`, the search of `do_item_mem_alloc` with all its loops, `do_item_regain`, flush (`Model/Lru`); the allocator below is any function | every call is a chain of small changes (`Act`, `Mi`); an invariant about queues, marks, times and references is kept by each of them |
| C77 | the same | the queue is ordered by time; the times of the two items are bounded over the calls between |
| C78, C79 | the same, 64-bit numbers | sums over the table, modulo 2^64, kept by each small change |
| C81 | the same | the search from the tail comes to an item not in use |
| C82, C83 | the binary protocol: header, `dispatch_bin_command` with all commands, the handlers with the codes they know, answers, swallowing, closing (`Model/Bin`); the engine is any machine that answers calls; a stream of bytes of which any part may have arrived | each handler uses up exactly the request (`Whole`), or closes; induction over the run; answers by cases over handlers and codes. `C82_pieces`: a request once handled is handled the same with more bytes behind it. `C83_quit`, `C83_obeys` (`Lemmas/BinObey`): QUIT and a disconnect by the engine are carried out; a removal is left out, since `process_bin_delete` answers such a code with an error |
| C84 | copies with lengths from the request as faults; `bin_read_chunk` with an `int` size | cases; arithmetic of the doubling |
| C85 | `accepts` (conditions of the dispatcher) against `Spec.shape` (the declared layouts) | cases over the commands |
| C86, C87 | encoding of requests and of answers with elements | round trip through `encode`, `handle` and `decodeElems` |
| C88 | the engine with a record of its calls (`Spec.logged`) | cases over handlers and codes |
| C89 | `Model/CmdLog`: ring buffer, writers, flush thread as steps in any order | invariant: what is on disk and what waits make up what was accepted; induction over runs |
| C90 | the same; a failed `assert` and a range outside of the buffer are faults | the only step that can fail is a line at the end of the buffer while `head` is 0; refuted by a run of 40960 commands |
| C91 | the same, with the number of lines seen at the last look | invariant of the look; refuted by a run of six steps |
| C92 | `fmt`; `Spec.lines` | lemma on prefixes of whole lines; refuted at length 400 |
| C93 | the same | cases of the writer with the shape of the buffer |
| C94 | the same | a number that falls with each step of the flush thread; `head` is a multiple of 4096 while logging is on; refuted by a run of 2559 rounds into a circle |
| C95 | The I/O vector of `process_get_single` with the suffix buffers; a client written from the protocol document; the client reads back the hits by induction over the items, with any rest. |
| C96 | The reply buffer as bytes with a write pointer, the vector as references into it, read at sending time; the invariant says that all referred pieces lie before the pointer, so that later prints do not change them. A client per reply form; `times` over elements. Negation: a missed key with a line end. |
| C97 | The sizes as the code computes them (32 bits, `int`), every print checked against the length; each element prints at most a fixed number of bytes. Negation: offset = count = 2^31. |
| C98 | Prints of `attr_to_printable_buffer` into 1024 bytes with `strlen` as the code calls it; client with names; induction over the list of names. |
| C99 | topkeys.c at the level of pointers: memory as a finite map, ring of `next`/`prev` with the assertions of `dlist_remove`, hash buckets of addresses, calloc as any function that gives unused addresses. Refinement: ring + table to a plain list (`count_ok`), the plain list to the history (`touch_want`): the n most recent of the different keys. |
| C100 | Same run: a result exists, and the addresses in use are exactly the ring. Negation: calloc fails once. |
| C101 | The snprintf with its cut at 248 and the read of `vlen` bytes; text against comma-separated fields. Negation: the state after 13 million operations, from C99's invariant without computing it. |
| C102 | As C101 with the time of the last use. Negation by a run of two operations. |
| C103 | lqdetect.c as a state machine over texts with its buffers of 10 x 10000, 192 and 251 bytes and the reply of 320 bytes more (`none` = overrun or signed overflow); refinement to a view of the history (newest first). A line of 499 characters and its NUL fill the 500 bytes exactly. |
| C104 | Samples cover the long queries up to equality of arguments, by induction over the history. Negation by two `bop get`. |
| C105 | Elements visited by the three list operations, from `adjust_list_range` and `do_list_elem_find`, against the cost that lqdetect.c takes. Negation by one miss and one false alarm. |
| C106 | Threads as interleavings of the unlocked check of `lqdetect_in_use`, the unlocked check of the threshold, the work under the lock, and the two halves of `lqdetect_start`; invariant of the buffers. |
| C107 | Same system; negation by an interleaving of eight steps. |
| C108 | stats_prefix.c: the table as 1024 buckets under any hash, `strncmp` with its stop at NUL, the search for the delimiter (twice), the 54 counters with the 32 `record` functions, the format string. The specification knows only the history: `known` and `count`. Refinement by induction over events (`step_ref`). Negations: one operation on `-x`; the history with prefixes of 1 to 10000 letters, through the refinement, without computing it. |
| C109 | Invariant: the number of entries and the sum of their lengths are those kept beside the table. Each line is at most 1359 bytes longer than its prefix. |
| C110 | Same invariant; the five outcomes of `stats_prefix_find` (`record_cases`). |
| C111 | config_parser.c: `trim_copy` with its limit, escapes and counts, the loop of `parse_config`, suffixes and types, files read line by line. Round trip: `render` of any writable list of options is parsed to what `Means` says (`loop_ok`), numbers through C42. Negations by four texts. |
| C112 | Reading behind the NUL and writing before the buffer are `none`. Invariant of the loop: what is left holds the last `name=`, or is white space (`loop_safe`). Negations by two texts. |
| C113 | `loop_unknown`: once the code is not 0 it stays so, for rendered options. Negations: a blank at the end; a file. |
| C114 | Key-value items without lifetime: hash table with times and ids, flush marks of all and of prefixes, the records on disk, checkpoint (atomic, cf. C36) and recovery with its own process state (Model/Restart). Forward simulation of one map (`step_R`): the visible items and the replay of the log are the map. Negation by a run. |
| C115 | Same model. Invariant: as long as no checkpoint has been made, the counter is the number of link records, and the last link record of a key has the id of its item; ids under a key only grow (`step_good`). Negation by a run. |
| C116 | One worker with its connections, its pipe, queue and list of woken connections, other workers as far as they share the log and the list of waiters, sync and group commit, with a step for each critical section (Model/Wake). The reports are a history beside the states (Spec/Wake). Invariant: the number of waits of a connection is the number of its waiters (`Inv0`), and what the next answer reports is synced or waited for (`Safe`). Negation by a run. |
| C117 | Same model. Every step of the server by itself lowers a rank (`rank_step`); while a connection is away there is such a step (`away_busy`), by the invariant that a non-empty list has a byte in the pipe or on its way (`kick`). |
| C118 | Same model, in which a failing `assert` or a connection put into a second list is a fault; the invariant excludes all faults (`inv_step`). |
| C119 | The text command from its arguments to the item, function by function; the record on the stack has fields that may be unwritten (Model/Attr). Any argument that is read stands for some request (`parse_any`); the three loops over requests equal a condition and an effect stated without loops (`set_spec`, Spec/Attr). |
| C120 | Same model; the notation of requests is a relation (`Asks`) based on that of numbers and bytes of C42 and C44. The check of bkey ranges uses the arithmetic of C22 (`badRange_spec`, `wide_check`). Negation by a list with a bkey range and a simple item with a maximum count. |
| C121 | Same model; the text of the lines is in C98. Negation: the value printed is a field that is unwritten. |
| C122 | Same model; a binary request gives the same call as its list of requests (`bin_call`). Negation for the length byte. |

## Findings

Properties that do not hold as stated; each is refuted by a theorem `…_false` with a concrete run of the model.

- C29: nothing limits the prefix of a key below `KEY_MAX_LENGTH`, but its length is kept in a `uint8_t`. Two keys that share a valid prefix
  of 256 bytes or more stop the server (`assert` in `_prefix_insert`; the build does not define `NDEBUG`). One such key leaves its prefix
  behind. A collection of 4 GiB (32-bit size) stops the server when it is deleted. The item model of C30 does not contain the truncation.
- C28: both SCAN variants can write behind their array (long chains while the table grows; long prefix chains; counts above 200).
- C27: a chain that fills the array makes a cursor skip keys.
- C23: no trimmed indication for offsets beyond the elements, and for reads that delete.
- C18: an insertion into a b+tree of the greatest depth whose top node is full meets an assertion (`Stuck`).
- C31: the flush of a prefix of 255 bytes is logged with the length that means "everything" and removes all items at recovery.
- C34: a record over 2 MB (possible with a larger item size limit) makes recovery fail; a log over 2 GB is recovered up to the record that
  crosses the limit, and recovery reports success (`int` offsets).
- C35: the beginning of a torn range stays in the file, so that everything logged later is skipped by the next recovery (or fails it). A torn
  record is not cut off: bytes of a torn value behind a shorter record are redone as records.
- C37: bytes 10 to 17 of a snapshot element are overwritten by an address; a b+tree with a maximum bkey range is looked up under wrong bytes.
- C40: the clock stands still during recovery; a slow recovery shortens lifetimes.
- C41: a value whose lifetime has run out by recovery does not remove the value it replaced: the old value comes back.
- C47: an item whose lifetime was extended is lost if its original lifetime has run out at recovery.
- C33: a record of more than 32768 bytes is cut into flush requests; once the first one is written and fsynced its client is told that the
  record is on disk (the comparison uses the start of the record).
- C39: `cmdlog_file_close` leaves `next_size`; after a checkpoint that failed with dual writes in its log, the next successful one stops the
  server (`assert` in `do_log_buff_flush`).
- C48: `cmdlog_buf_final` calls the flush once, which writes one request (at most 32 KB); other requests in the queue are lost.
- C50: a record of half the buffer (50 MB; the item size limit can be set higher) can meet head and tail in the middle of an empty buffer: it
  fits on neither side, nothing is there to flush, and the client loops for ever with the cache lock held.
- C36: a `flush_all` during the scan marks items instead of removing them, and a key stored behind it in the part that is not scanned yet is
  lost at recovery. A key of the first bucket stored between the opening of the scan and its first step is written to both logs, its later
  deletion only to the old one: it comes back at recovery.
- C38: `do_chkpt_sweep_files` reads the time stamp of a file name with `atoi`: 14 digits never equal `lasttime`, so the sweep (which runs after
  any failed removal) removes the current snapshot and command log too.
- C51: time stamps are local time. If it goes back between two checkpoints (end of daylight saving time) a crash before the removal of the
  older files makes recovery choose the older snapshot; with the same second, a failed checkpoint removes the files of the current one.
- C24: the limit on offset + count is checked in 32 bits (memcached.c 13080 and 2894). `bop smget … 4294967295 1` passes, and the engine
  writes before its index array. Keys are compared with `strncmp`: two that differ only behind a zero byte (the key block may hold any
  byte) are taken for one and fail the request. A range that ends exactly at the only element in it, next to trimmed space, is
  reported as trimmed.
- C52: in unique mode, when the last element of a key loses against an equal bkey, its item is released, but the slot keeps the pointer; if
  the slot is not used again the item is released once more at the end. With another holder (a snapshot) the item can be freed in use.
- C53: with an empty list of nodes the look-up reads the first pointer of an empty continuum. Two node strings with the same name before the
  dash make a server deny all its keys. Names are cut to 127 bytes. After a reconfiguration that failed for lack of memory, the old list
  does not make the configuration valid again (it is "the same").
- C54: `do_continuum_build` (line 469) writes new numbers into the node items that the present continuum points to, before `ketama_lock` is
  taken. A look-up in between compares a new number with the old `self_id`: the server denies a key it owns before and after, or claims
  a foreign one. A stale scrub (items.c 1166) that runs meanwhile deletes owned items.
- C55: `do_node_free_list_prepare` counts nodes in use as available. A change that removes and adds nodes can find the free list empty and
  meets `assert(item != NULL)` (line 423): in a cluster that grew to eleven nodes, replacing one is enough, on every server.
- C57: `tokenize_mblocks` leaves its loop when the keys promised are found at a block border, and never looks at the blocks that follow: a
  longer list is served instead of refused.
- C58: if the last block of a key string holds one delimiter and nothing else, it is skipped as the one behind the last key, and
  `tokenize_mblck` is called with length 0: `assert(keylen > 0)`. One request stops the server: `mget 32761 4` with keys of 16000, 16000 and
  758 bytes, each followed by a space.
- C59: memcached.c 15837 accepts item sizes from 20 KB on, but slabs.c 356 computes the blocks per page as item size / 256 KB: below 256 KB it
  is 0, a page is 0 bytes long, and the first block handed out lies outside of it. In the model the first small
  allocation faults.
- C59 needs that users never zero the first word of a piece: a used slot is told from a free one by its first 4 bytes. All users keep
  `slabs_clsid` there; item_base.c 916 clears it right before the release.
- C62: slabs.c 1307-1309 multiply `unsigned int` counts by the block size in 32 bits. With 4 GB or more of free blocks or reserve when the
  reserve is fixed, `free_limit_space` and `free_chunk_space` come out short by multiples of 4 GB; the later decrements make the count
  smaller than what is there, so that shortage and eviction start early.
- C63: more than 100 blanks before a command are accepted if the end of the line has arrived when the line is 1025 bytes long, else the
  connection is closed (memcached.c 13787-13797); the same for lines of more than 24 KB that are not `get`. So the packets do matter for
  such lines.
- C67: memcached.c 13788 skips blanks without a limit; the input buffer is not ended by a zero byte. If a client sends 64 KB of blanks, the
  search runs over the end of the buffer.
- C64: `mop delete <key> <lenfields> <numfields> noreply` (or `pipe`) with a bad number of fields is refused without swallowing the fields
  (memcached.c 12498-12504): the list is then read as a command. Refuted with a list of fields that reads `flush_all`.
- C64, C65: a `mop delete` with a list of fields that is skipped after a pipeline has failed swallows `lenfields` bytes instead of
  `lenfields + 2` (memcached.c 12535): the end of line that remains is taken for an empty command and answered with an error of its own.
- C64: `c->sbytes` is an `int`. A refused `mget`, `mop get`, `mop delete` or `bop mget` with a length of 2147483646 or more makes it negative
  (memcached.c 8721, 12501, 12562, 13074), and `conn_swallow` (14241) moves the read pointer backwards: bytes that were handled are handled
  again, or, with `mget 2147483646 1`, the pointer leaves the buffer. Any client can do this.
- A malformed command in a pipeline that has failed resets the pipeline (memcached.c 1466-1479): it has a second answer. The claim C65 is
  about well-formed commands.
- C66: a message that consists of empty pieces only is taken for a failed write (`sendmsg` returns 0); `C66_ends` asks for pieces that are
  not empty. The server makes no such responses.
- C69: if the 30th word of a `get` line (the 29th key) begins with a byte 0, it and all words behind it are ignored, because the end of the line is
  recognised by such a byte (mc_util.c 272).
- The following findings concern servers compiled with `ASCII_SASL` that require authentication.
- C71: `get arcus:x secret` reads `secret` for a client without any rights: only the first key is checked (memcached.c 8604).
- C73: a refused `set`, `lop insert`, ... leaves its data in the input, where they are carried out as commands (memcached.c 8746-8749, 10807-10810 and
  all other commands with data). A proxy that forwards values of its clients can be made to send commands of the client's choice. In a
  pipeline, a refused command also ends the pipeline with an answer, and the commands behind it are carried out as a new one.
- C72: the binary protocol asks only whether a user is authenticated (memcached.c 4522-4547, 6944): a user with `kv` may flush or, with the scrub
  command, remove items.
- C70: the data of the access list are copied to an array on the stack without an end mark (sasl_auxprop.c 229, sasl_defs.c 171-173): bytes that stood
  there before are read as words of the list, and can add rights; a list of 1024 bytes is read beyond the array.
- C75: `scrub` without arguments from a client without the right `admin` (or from a user whose name begins with `*`) makes
  `assert(ntokens >= 2)` fail (memcached.c 7905), as `process_extension_command` has taken the terminal token off the count (9883): the server
  stops. Without assertions the bound `ntokens-2` of the loop wraps to a huge number.
- C74: `sasl auth 4294967295` allocates one byte (memcached.c 4333: the sum is computed with 32 bits), and the library is told that 4294967295 bytes
  are there. Without memory for the data, they are read as commands (4334-4337), as is done for `require_sasl` off with lengths over 2 GB (4328: `sbytes`
  is an `int`).
- `stats` (with all its subcommands, also `reset`, `detail` and `cachedump`) needs no right at all. A failed authentication leaves the rights of the user
  before, while the log names the new user (memcached.c 3196, 3260). All clients of a UDP port share one connection and so its rights. If one
  node of the access list has no data, the whole list cannot be read (sasl_auxprop.c 52-54, 121-124).
- C79: `do_item_stat_replace` (item_base.c 228-254) looks only at the new item. `set k 0 0 3`, `set k 0 -1 3`, `delete k` makes `sticky_bytes` negative,
  which as a 64-bit number is over any limit (item_base.c 326-333): from then on the server refuses every sticky item with `SERVER_ERROR out of memory`,
  until as much has drifted the other way. The other way round, a sticky item replaced by a plain one stays counted, and in the
  end sticky items are refused though there are none. Any client can do this. `sticky_items` drifts in the same way (C78).
- C81: the search for an item to evict gives up after 200 items in use (item_base.c 835-862). It takes them off their queue, so that a second request gets
  further.
- C76: an item that is in use, but has not been touched for three hours, may be freed while its user still reads it (item_base.c 886-903, `do_item_repair`
  sets the reference count to 0). The item is a leak for the server if its user died, but not if the user is a slow client.
- C82: the binary protocol takes bytes of a body for a request in three cases. The length of the body of `STAT` is not checked (memcached.c 7095-7101) and the rest of
  it not skipped; `BOP_UPDATE` with `novalue` is carried out without reading the value that the dispatcher demands (5759-5765); `FLUSH_PREFIX` demands
  that body and extras have the same length though there is a key (7039-7045), so that it reads its key from the following request. Whoever can choose a
  value that a proxy forwards can insert commands. Also, if the engine answers "not supported" when room is asked for, the value is not skipped (3728).
- C84: (a) the answer to a `GETK` that misses is put together in the write buffer of 2048 bytes, with the key behind the header, though keys may have 16000
  bytes (4000-4006): a heap overflow with bytes of the client. (b) `BOP_UPDATE` copies `neflag` and `nbkey` bytes into arrays of 31 bytes in `struct conn`
  before looking at them, also 255, which stands for "no flag" (5737-5747). (c) `SETATTR` copies up to 254 bytes into an array of 31 on the stack
  (6776-6788). (d) `BOP_INSERT` copies `nbkey` and `neflag` bytes, up to 255 each, without a check (5535-5543). (e) an unknown operation code with a body of 1 GiB
  or more doubles the size of the read buffer to 2^31, kept in an `int`: the size is negative afterwards (4213-4264).
- C85: `BOP_DELETE`, `BOP_GET`, `BOP_COUNT`, `BOP_MGET` and `BOP_SMGET` can never be accepted: their extras have more than 3200 bytes, the length of the extras
  is one byte. `FLUSH_PREFIX` is always refused when well formed. `GETATTR` demands 56 bytes of extras that are declared nowhere. Elements with an
  empty value cannot be stored or looked up.
- C90: `cmdlog_write` goes to the start of the buffer when a line does not fit at its end, without asking whether `head` is 0; if it is, the first of the two assertions that
  follow fails and the server aborts (cmdlog.c 419-424). This takes 10 MB of commands while the flush thread waits for the disk with `head` at 0, as at the start of
  the logging. Without assertions it would write over what has not been written to disk.
- C91: the flush thread reads `tail` and afterwards `cmdlog_in_use` (161-176). A command logged and a stop between the two are missed: it ends and the command is in no file.
- C92: `nwritten > CMDLOG_INPUT_SIZE` should be `>=` (410): a line of exactly 400 bytes is cut without the mark and without its line feed.
- C94: if the logging is stopped between the two looks just after the buffer has turned, `head` can come to stand on `last`; `writelen` is 0 then and `head` stays where it is
  for ever (195-196): the flush thread uses a whole processor and `cmdlog_start` says that the previous thread has not finished.
- Seen, not modelled: `cmdlog_start` accepts a path of 128 bytes for an array of 128 (288, 310).
- **`bop smget` with offset + count of 2^32 writes far outside of its buffer** (C97, `C97_false`): memcached.c 13091 adds offset and count in 32 bits, so that 2147483648 + 2147483648 = 0 passes the limit of 2000; the sizes at 11866-11882 wrap around too (161 bytes for one key), and `respptr` and the key arrays of `smres` (2879-2881) lie 34 GB behind. One command line crashes the server. (C24 has the same sum inside the engine.)
- **Keys with line ends break the replies of `bop mget` and `bop smget`** (C96, `C96_false`): the key block is cut only at blanks (or commas), so that a key may contain `\r\n`; the reply repeats the key of a miss, and a client reads a wrong line. A client that passes on foreign keys can be made to read forged lines.
- **The reply buffer of the older `bop smget` is smaller than its own headers** (C97, noted with the proof of `smgetOld_ok`): head, `MISSED_KEYS` line and last line need up to 52 bytes of the 50 reserved; only the slack of at least 5 bytes in each of the (at least one) reserved elements saves it.
- **Counting a key aborts the server when memory is short** (C100, `C100_false`): `topkey_item_init` asserts that calloc succeeds (topkeys.c 12-13). The caller is written for a NULL (topkeys.c 121, 127-128), but compiled without assertions the NULL would be dereferenced by `topkey_item_init` itself (16) and by the macro `TK` (topkeys.h 73).
- **`stats topkeys` reads past its buffer for busy keys** (C101, `C101_false`): `tk_iterfunc` hands on the length that snprintf would have needed, not the one that fit (topkeys.c 181-184). 165 characters are fixed; 84 digits in 13 counters and two times are enough for a wrong character, 85 for bytes that were never written, more for bytes of the stack behind `val_str` sent to the client.
- **`atime` in `stats topkeys` is always equal to `ctime`** (C102, `C102_false`): `atime` is set when the item is made (topkeys.c 18) and never again.
- **`lop get k 2147483647..0` overflows an `int` while detection runs** (C103, `C103_false`): `from_index+1` and `-(from_index)` are computed in `int` (lqdetect.c 348, 360, 373); both extreme indexes get elements and so reach it.
- **Of the long queries with equal arguments only one key is shown** (C104, `C104_false`): `is_command_duplicated` compares keys only for sop and mop with a count of 0 (lqdetect.c 83-118). `bop get a 0..9` hides `bop get b 0..9`, however long the latter takes.
- **The cost of list queries is not what they visit** (C105, `C105_false`): the index is taken as given, before it is adjusted to the list, so `lop get k 4000..0` on a list of one element is reported; for a `lop delete` backwards the search goes to the other end of the range (coll_list.c 233-252), so a visit of all 6000 elements is missed with a threshold of 4000. For inserts at a negative index the cost may be one too small.
- **A short query may be recorded when detection is restarted** (C107, `C107_false`): `lqdetect_start` clears the whole of `lqdetect.stats`, the threshold with it, and sets the threshold after (lqdetect.c 257-266); a worker that saw `lqdetect_in_use` before the stop compares with 0.
- **Keys without a prefix are lost for the statistics if the first one begins with a hyphen** (C108, `C108_false`): for a prefix of length 0 `mc_isvalidname(key, 0)` still looks at `key[0]` (util.c 177), so `get -x` makes no entry `<null>` and is not counted; once `get x` has made the entry, `get -x` is counted.
- **The ten thousandth prefix is listed with zeros and turns the details off** (C108, `C108_false`): the entry is put into the table, then the limit is checked and NULL is returned (stats_prefix.c 256-260), so the operation that brought it is not counted, and `settings.detail_enabled` becomes 0 with a log line as the only notice; all operations after it are missed.
- **Engine options in terabytes are zero** (C111, `C111_false`): the factor is an `int` (config_parser.c 133-136), so for `t` it overflows (0 on usual machines); the overflow, undefined in C, is computed for each number without a suffix, too. `max_list_size=4g` wraps to 0 in 32 bits without an error (159).
- **An empty engine option takes the next one as its value** (C111, `C111_false`): the copying loop of `trim_copy` is a `do … while` that copies the first character even if it is the stop character (config_parser.c 65-76): `data_path=;use_cas=off` sets `data_path` to `;use_cas=off`.
- **Blanks before `=` or `;` are not trimmed** (C111, `C111_false`): `lastchar` is the last character of the whole rest of the text, not of the part (config_parser.c 53-58); `cache_size = 2g` is "Unsupported key: <cache_size >".
- **An engine option without `=` makes the parser read behind the text** (C112, `C112_false`): `ptr = end + 1` skips the NUL (config_parser.c 108). `-e cache_size` reads whatever follows in memory as the value.
- **Backslashes make the parser write before its buffer** (C112, `C112_false`): a backslash counts for `n` but does not advance `dest`, and for a full buffer `dest` is taken back by one (config_parser.c 66-82): 80 backslashes write a NUL to `key[-1]`, 1024 to `value[-1]`.
- **Unknown engine options are accepted in files and before a blank** (C113, `C113_false`): when only white space is left `parse_config` returns 0 instead of `ret` (config_parser.c 96-99); each line of a file ends in a newline, so a misspelt option in a `config_file` never stops the start, against config_parser.h 75-78.
- **Delayed flushes do not survive a restart, and what they removed comes back** (C114, `C114_false`, `C114_pending_false`): `cmdlog_generate_flush_item` writes a record only if there is no delay (cmdlogmgr.c 544), and the removals of the flushed items are not logged either (ITEM_UNLINK_INVALID, item_clog.c 47-48). After a restart before the next checkpoint, items that clients have found missing since the flush took place are served again; a flush still to come is forgotten.
- **Unique ids are given again after a restart, so a cas can overwrite an unseen change** (C115, `C115_false`): the counter of `get_cas_id` is a static variable that starts at 0 (item_base.c 379-383); recovery counts one id per redone link record but gives the items their old ids (items.c 1744-1747), and does not raise the counter to them. After a checkpoint there are fewer records than ids given: with "k" stored twice, a checkpoint and a restart, the next store of "k" gets the id 2 again, and a client that read "k" with id 2 before succeeds with its cas.
- **In synchronous logging a pipeline can be acknowledged before it is on disk** (C116, `C116_false`): commands with `pipe` run with `c->noreply` set (memcached.c 7982-7986), so `cmdlog_waiter_end` does not wait for their records (cmdlogmgr.c 366-367); only the last command of the pipeline waits, and only if it succeeds. If it fails ("lop insert k1 ... pipe", then "lop insert k2 ..." with NOT_FOUND), or if the pipeline is ended by an error or by its 500th command, "RESPONSE 2 / STORED / NOT_FOUND / END" is sent at once, and a crash within the next sync loses the element reported as stored.
- **setattr answers OK to attributes the item does not have** (C120, `C120_false`): `do_item_setattr` checks attributes only by the type's own function, and that skips what it does not know (items.c 821-836, coll_list.c 637-655). "setattr list maxbkeyrange=5" and "setattr kv maxcount=5" are answered with OK; `getattr` of the same attribute says ATTR_ERROR.
- **getattr minbkey or maxbkey of items that are no b+trees prints stack memory** (C121, `C121_false`): the lists of refused names (items.c 763-770, coll_list.c 617-622, and the same for sets and maps) lack `ATTR_MINBKEY` and `ATTR_MAXBKEY`. For a simple item the uninitialised `count` decides; for a list, set or map with elements the uninitialised bkey is printed, with an uninitialised length of up to 255 bytes, so 510 digits: two such names may exceed `buffer[1024]` (memcached.c 13338; read off the code, not a theorem).
- **A binary setattr request overruns the stack** (C122, `C122_false`): `process_bin_setattr` copies `maxbkeyrange.len` bytes from the request into `attr_data.maxbkeyrange.val[31]` (memcached.c 6776-6788) for any length but 255 and 0. Up to 254 bytes are written; with lengths of 32 to 100 the overrun stays within `attr_data` (types.h 387-400), and a b+tree may get a maximum range with a length above 31 (read off the code; the theorem says only that the copy leaves the array).
