{
 "claims": [
  {
   "property": "C01",
   "status": "proved",
   "theorems": [
    "Verif.Item.Props.C01_simulation",
    "Verif.Item.Props.C01_history",
    "Verif.Item.Props.C01_progress"
   ],
   "note": "Every engine call simulates the map; lifted to all client strategies. Histories: all calls except do_item_repair (refuted by C08_repair_false), incr/decr on collections (C09_false), delayed flushes (C05_false)."
  },
  {
   "property": "C02",
   "status": "proved",
   "theorems": [
    "Verif.Item.Props.C02_cas",
    "Verif.Item.Props.C02_fresh"
   ],
   "note": "No ABA over arbitrary histories; unique ids strictly increase. Histories: all calls except do_item_repair (refuted by C08_repair_false), incr/decr on collections (C09_false), delayed flushes (C05_false)."
  },
  {
   "property": "C03",
   "status": "proved",
   "theorems": [
    "Verif.Item.Props.C03_expiry",
    "Verif.Item.Props.C03_realtime",
    "Verif.Item.Props.C03_sticky"
   ],
   "note": "History theorem plus the argument mapping. Histories: all calls except do_item_repair (refuted by C08_repair_false), incr/decr on collections (C09_false), delayed flushes (C05_false)."
  },
  {
   "property": "C04",
   "status": "partial",
   "theorems": [
    "Verif.Item.Props.C04_gone_partial",
    "Verif.Item.Props.C04_newer_partial",
    "Verif.Item.Props.C04_lruDrop_false"
   ],
   "note": "False when a referenced item has been dropped off its LRU queue under memory shortage (C04_lruDrop_false); proved for histories without that."
  },
  {
   "property": "C05",
   "status": "partial",
   "theorems": [
    "Verif.Item.Props.C05_partial",
    "Verif.Item.Props.C05_false"
   ],
   "note": "Full claim refuted: a later delayed flush_all overwrites the flush mark. Proved for immediate flushes of any scope."
  },
  {
   "property": "C06",
   "status": "partial",
   "theorems": [
    "Verif.Item.Props.C06_partial",
    "Verif.Item.Props.C06_refuse_partial",
    "Verif.Item.Props.C06_create",
    "Verif.Item.Props.C06_blank_false",
    "Verif.Item.Props.C06_overread"
   ],
   "note": "Exact for decimal values below 2^63, and below 2^64 if no minus sign follows in memory; the refusal claim is false for blank values and values like \"12 abc\"."
  },
  {
   "property": "C07",
   "status": "proved",
   "theorems": [
    "Verif.Item.Props.C07_attach",
    "Verif.Item.Props.C07_missing"
   ],
   "note": "All cases of append and prepend. Histories: all calls except do_item_repair (refuted by C08_repair_false), incr/decr on collections (C09_false), delayed flushes (C05_false)."
  },
  {
   "property": "C08",
   "status": "partial",
   "theorems": [
    "Verif.Item.Props.C08_live_partial",
    "Verif.Item.Props.C08_held_partial",
    "Verif.Item.Props.C08_once_partial",
    "Verif.Item.Props.C08_repair_false"
   ],
   "note": "False with do_item_repair (C08_repair_false); proved for all other calls, references below 32768*255."
  },
  {
   "property": "C09",
   "status": "partial",
   "theorems": [
    "Verif.Item.Props.C09_partial",
    "Verif.Item.Props.C09_false"
   ],
   "note": "Full claim refuted: incr/decr on a collection leaks a reference. Proved for all other calls."
  },
  {
   "property": "C10",
   "status": "partial",
   "theorems": [
    "Verif.Lst.Props.C10_list_partial",
    "Verif.Lst.Props.C10_values",
    "Verif.Lst.Props.C10_intmin_false"
   ],
   "note": "Pointer-level doubly linked list refines a sequence, for all histories and client strategies. Missing: an insert at index -2^31, where the code negates INT_MIN (C10_intmin_false), and more than 65535 simultaneous references to one element."
  },
  {
   "property": "C11",
   "status": "proved",
   "theorems": [
    "Verif.Lst.Props.C11_bound",
    "Verif.Lst.Props.C11_error",
    "Verif.Lst.Props.C11_trim"
   ],
   "note": "Bound over all histories of the implementation; refusal and trimming effects on the sequence the implementation refines (C10_list_partial)."
  },
  {
   "property": "C12",
   "status": "partial",
   "theorems": [
    "Verif.HT.Props.C12_set_partial",
    "Verif.HT.Props.C12_C14_values",
    "Verif.HT.Props.C12_C14_bound",
    "Verif.HT.Props.C12_collisions_false"
   ],
   "note": "Node-level 16-way hash tree refines a finite set for every hash function, history, size. Missing: 64 or more values agreeing in 28 bits of the hash value; the full claim is refuted by 71 colliding printable values (C12_collisions_false)."
  },
  {
   "property": "C13",
   "status": "partial",
   "theorems": [
    "Verif.HT.Props.C13_random",
    "Verif.HT.Props.C13_unstuck",
    "Verif.HT.Props.C12_set_partial"
   ],
   "note": "Every source of random numbers: exact count, distinct members, removal of exactly these; the draw can always finish. Same collision restriction as C12."
  },
  {
   "property": "C14",
   "status": "partial",
   "theorems": [
    "Verif.HT.Props.C14_map_partial",
    "Verif.HT.Props.C12_C14_values",
    "Verif.HT.Props.C12_C14_bound",
    "Verif.HT.Props.C14_collisions_false"
   ],
   "note": "As C12 for maps; gets without delete name every field once (else C15_repeated_false)."
  },
  {
   "property": "C15",
   "status": "partial",
   "theorems": [
    "Verif.HT.Props.C15_repeated_false",
    "Verif.HT.Props.C14_map_partial"
   ],
   "note": "Full claim refuted by a get naming a field twice; with distinct fields no write outside the array (C14_map_partial, whose model faults on such a write)."
  },
  {
   "property": "C16",
   "status": "proved",
   "theorems": [
    "Verif.BT.Props.C16_order",
    "Verif.BT.Props.C16_compare"
   ],
   "note": "All keys of the same kind; mixed kinds fail an assertion in the code and are rejected before any comparison."
  },
  {
   "property": "C17",
   "status": "proved",
   "theorems": [
    "Verif.BT.Props.C17_filter",
    "Verif.BT.Props.C17_parse",
    "Verif.BT.Props.C17_accepted"
   ],
   "note": "Parser and filter code against a declarative filter; offsets written with a minus sign are excluded (see C42)."
  },
  {
   "property": "C18",
   "status": "proved",
   "theorems": [
    "Verif.BT.Props.C18_sorted_map",
    "Verif.BT.Props.C18_insert",
    "Verif.BT.Props.C18_replace",
    "Verif.BT.Props.C18_refused",
    "Verif.BT.Props.C19_delete"
   ],
   "note": "Node-level b+tree (32-way nodes, splits, shifts, merges, cached counts) refines the list sorted by bkey for every sequence of calls; a fault happens only in an insertion into a tree of the greatest depth with a full top node."
  },
  {
   "property": "C19",
   "status": "proved",
   "theorems": [
    "Verif.BT.Props.C19_get",
    "Verif.BT.Props.C19_nothing",
    "Verif.BT.Props.C19_count",
    "Verif.BT.Props.C19_delete",
    "Verif.BT.Props.C18_sorted_map"
   ],
   "note": "Consequences of the specification that C18_sorted_map shows the code to follow."
  },
  {
   "property": "C20",
   "status": "proved",
   "theorems": [
    "Verif.BT.Props.C20_rank",
    "Verif.BT.Props.C20_inverse",
    "Verif.BT.Props.C20_inverse'",
    "Verif.BT.Props.C20_around",
    "Verif.BT.Props.C18_sorted_map"
   ],
   "note": "Consequences of the specification that C18_sorted_map shows the code to follow."
  },
  {
   "property": "C21",
   "status": "proved",
   "theorems": [
    "Verif.BT.Props.C21_bound",
    "Verif.BT.Props.C21_overflow",
    "Verif.BT.Props.C21_mark",
    "Verif.BT.Props.C18_refused",
    "Verif.BT.Props.C18_sorted_map"
   ],
   "note": "Count at most maximum in every run; the policy for every insertion into a full collection; the mark is set only by trims that are not silent."
  },
  {
   "property": "C22",
   "status": "partial",
   "theorems": [
    "Verif.BT.Props.C22_range_partial",
    "Verif.BT.Props.C22_mixed_false"
   ],
   "note": "Holds for numbers and for byte strings exactly as long as the maximum range; refuted for byte strings of mixed lengths."
  },
  {
   "property": "C23",
   "status": "partial",
   "theorems": [
    "Verif.BT.Props.C23_told_partial",
    "Verif.BT.Props.C23_only",
    "Verif.BT.Props.C23_offset_false",
    "Verif.BT.Props.C23_delete_false",
    "Verif.BT.Props.C23_spurious"
   ],
   "note": "Told for every read without delete with an offset below the number of elements; refuted otherwise. It may be told wrongly (C23_spurious)."
  },
  {
   "property": "C24",
   "status": "partial",
   "theorems": [
    "Verif.Smget.Props.C24_merge_partial",
    "Verif.Smget.Props.C24_wrap_false",
    "Verif.Smget.Props.C24_zero_false",
    "Verif.Smget.Props.C24_trim_false"
   ],
   "note": "Current interface: for all command sequences, keys, ranges, filters, both modes. Needs different keys without zero bytes and offset+count below 2^32, refuted without the last two. Missing: the old interface."
  },
  {
   "property": "C25",
   "status": "proved",
   "theorems": [
    "Verif.Assoc.Props.C25_map",
    "Verif.Assoc.Props.C25_table"
   ],
   "note": "Refinement for every hash function, every interleaving of map calls, expansion steps, allocation failures and scans."
  },
  {
   "property": "C26",
   "status": "proved",
   "theorems": [
    "Verif.Assoc.Props.C26_exactly_once",
    "Verif.Assoc.Props.C26_at_most_once",
    "Verif.Assoc.Props.C26_resident",
    "Verif.Assoc.Props.C26_visited",
    "Verif.Assoc.Props.C26_visited_before_start_false"
   ],
   "note": "Beyond the statement: the visited-area test is right after the first step of a scan and wrong before it."
  },
  {
   "property": "C27",
   "status": "partial",
   "theorems": [
    "Verif.Assoc.Props.C27_cursors_partial",
    "Verif.Assoc.Props.C27_crowded_false"
   ],
   "note": "Proved when at every call each chain (pair of chains while the table grows) fits into the part of the array that is not asked for; refuted otherwise."
  },
  {
   "property": "C28",
   "status": "partial",
   "theorems": [
    "Verif.Assoc.Props.C28_inside_partial",
    "Verif.Assoc.Props.C28_keyscan_partial",
    "Verif.Assoc.Props.C28_outside_false",
    "Verif.Assoc.Props.C28_keyscan_wrap_false",
    "Verif.Prefix.Props.C28_prefix_inside_partial",
    "Verif.Prefix.Props.C28_prefix_outside_false"
   ],
   "note": "Key scans: safe with room and a count of at most 200; refuted while the table grows with long chains, and for counts above 200 (unsigned wrap). Prefix scans: safe with room for any bucket, refuted otherwise."
  },
  {
   "property": "C29",
   "status": "partial",
   "theorems": [
    "Verif.Prefix.Props.C29_statistics_partial",
    "Verif.Prefix.Props.C29_long_prefix_false",
    "Verif.Prefix.Props.C29_left_behind_false",
    "Verif.Prefix.Props.C29_big_collection_false",
    "Verif.Prefix.Props.C29_other_type_false"
   ],
   "note": "Refinement for all histories in which prefixes have at most 255 bytes and sizes fit in 32 bits; refuted without: the server stops on an assertion, or a prefix stays behind."
  },
  {
   "property": "C30",
   "status": "partial",
   "theorems": [
    "Verif.Item.Props.C30_gone_partial",
    "Verif.Item.Props.C30_untouched_partial"
   ],
   "note": "As C04: histories without items dropped off their LRU queue; prefix depth 1."
  },
  {
   "property": "C31",
   "status": "partial",
   "theorems": [
    "Verif.Log.Props.C31_round_trip_partial",
    "Verif.Log.Props.C31_flush_255_false"
   ],
   "note": "All record types, all unset bytes and paddings; refuted for the flush of a prefix of 255 bytes (redone as flush of everything)."
  },
  {
   "property": "C32",
   "status": "partial",
   "theorems": [
    "Verif.LogBuf.Props.C32_partial",
    "Verif.LogBuf.Props.C32_safe"
   ],
   "note": "All interleavings of clients, flusher, checkpoint and fsync, including the switch of files; needs room in the queue of flush requests."
  },
  {
   "property": "C33",
   "status": "partial",
   "theorems": [
    "Verif.LogBuf.Props.C33_partial",
    "Verif.LogBuf.Props.C33_false"
   ],
   "note": "Holds for records inside one flush request, without checkpoints; refuted for every record of more than 32768 bytes."
  },
  {
   "property": "C34",
   "status": "partial",
   "theorems": [
    "Verif.Log.Props.C34_recovery_partial",
    "Verif.Log.Props.C34_whole",
    "Verif.Log.Props.C34_served_partial",
    "Verif.Log.Props.C34_big_false",
    "Verif.Log.Props.C34_long",
    "Verif.Log.Props.C34_long_false"
   ],
   "note": "Any cut, any engine; needs records of at most 2 MB and a log of at most INT_MAX bytes, refuted without. C34_served_partial: what clients are served, from live run to bytes to recovery, for key-value items."
  },
  {
   "property": "C35",
   "status": "partial",
   "theorems": [
    "Verif.Log.Props.C35_restarts_partial",
    "Verif.Log.Props.C35_range_false",
    "Verif.Log.Props.C35_range_fail_false",
    "Verif.Log.Props.C35_tail_false"
   ],
   "note": "Any number of restarts if no range is torn and the torn record is overwritten; refuted without."
  },
  {
   "property": "C36",
   "status": "partial",
   "theorems": [
    "Verif.Snapshot.Props.C36_partial",
    "Verif.Snapshot.Props.C36_flush_false",
    "Verif.Snapshot.Props.C36_early_false"
   ],
   "note": "Key-value items, all interleavings of clients with the scan; refuted when a flush falls into the scan, and for stores between the opening of the scan and its first step."
  },
  {
   "property": "C37",
   "status": "partial",
   "theorems": [
    "Verif.Log.Props.C37_short_partial",
    "Verif.Log.Props.C37_damage",
    "Verif.Log.Props.C37_false",
    "Verif.Log.Props.C37_maxbkeyrange_false"
   ],
   "note": "Elements of at most 10 bytes; C37_damage says exactly which bytes of a longer one are lost."
  },
  {
   "property": "C38",
   "status": "partial",
   "theorems": [
    "Verif.Checkpoint.Props.C38_partial",
    "Verif.Checkpoint.Props.C38_false",
    "Verif.Checkpoint.Props.C38_false_run"
   ],
   "note": "Holds for 31-bit time stamps only; refuted for all real ones: the sweep removes the current files."
  },
  {
   "property": "C39",
   "status": "partial",
   "theorems": [
    "Verif.LogBuf.Props.C39_partial",
    "Verif.LogBuf.Props.C39_false"
   ],
   "note": "Holds as long as failed checkpoints had written nothing to the new log; refuted otherwise: the server stops."
  },
  {
   "property": "C40",
   "status": "partial",
   "theorems": [
    "Verif.Log.Props.C40_lifetime_partial",
    "Verif.Log.Props.C40_slow",
    "Verif.Log.Props.C40_slow_recovery_false"
   ],
   "note": "Exact when the clock does not lag at recovery; the clock is frozen during recovery, so a slow one ends lifetimes early."
  },
  {
   "property": "C41",
   "status": "partial",
   "theorems": [
    "Verif.Log.Props.C41_absent_partial",
    "Verif.Log.Props.C41_false"
   ],
   "note": "Refuted; holds if no short-lived value superseded a longer-lived one."
  },
  {
   "property": "C42",
   "status": "partial",
   "theorems": [
    "Verif.Util.Props.C42_strtoll_partial",
    "Verif.Util.Props.C42_strtol_partial",
    "Verif.Util.Props.C42_strtoull_partial",
    "Verif.Util.Props.C42_strtoul_partial",
    "Verif.Util.Props.C42_strtoull_blank",
    "Verif.Util.Props.C42_strtoull_wrap"
   ],
   "note": "Exact for tokens not starting with white space (and, for the unsigned parsers, without a minus sign). The full claim is refuted by C42_strtoull_blank and C42_strtoull_wrap."
  },
  {
   "property": "C43",
   "status": "partial",
   "theorems": [
    "Verif.Util.Props.C43_glob_partial",
    "Verif.Util.Props.C43_glob_escape"
   ],
   "note": "Exact unless pattern and text both contain a backslash; full claim refuted by C43_glob_escape."
  },
  {
   "property": "C44",
   "status": "proved",
   "theorems": [
    "Verif.Util.Props.C44_decode_iff",
    "Verif.Util.Props.C44_roundtrip"
   ],
   "note": ""
  },
  {
   "property": "C45",
   "status": "partial",
   "theorems": [
    "Verif.BT.Props.C45_overflow",
    "Verif.BT.Props.C45_filter_bounds_false",
    "Verif.BT.Props.C45_filter_bounds_partial"
   ],
   "note": "False as stated: 101 values of 31 bytes write 31 bytes past the value array. Holds with at most 100 pieces per token."
  },
  {
   "property": "C46",
   "status": "proved",
   "theorems": [
    "Verif.Prefix.Props.C46_exactly_once",
    "Verif.Prefix.Props.C29_statistics_partial"
   ],
   "note": "For every legal client; the array has room for every bucket (otherwise C28_prefix_outside_false)."
  },
  {
   "property": "C47",
   "status": "partial",
   "theorems": [
    "Verif.Log.Props.C47_extended_partial",
    "Verif.Log.Props.C47_false"
   ],
   "note": "Refuted when the original lifetime has run out at recovery."
  },
  {
   "property": "C48",
   "status": "partial",
   "theorems": [
    "Verif.LogBuf.Props.C48_partial",
    "Verif.LogBuf.Props.C48_false"
   ],
   "note": "The shutdown flushes one request: enough if at most the open one waits, refuted otherwise."
  },
  {
   "property": "C49",
   "status": "partial",
   "theorems": [
    "Verif.LogBuf.Props.C49_partial"
   ],
   "note": "Without a running checkpoint, with room in the queue."
  },
  {
   "property": "C50",
   "status": "partial",
   "theorems": [
    "Verif.LogBuf.Props.C50_partial",
    "Verif.LogBuf.Props.C50_false"
   ],
   "note": "For records of which two and a flush unit fit into the buffer, for one thread; refuted for records of half the buffer size."
  },
  {
   "property": "C51",
   "status": "partial",
   "theorems": [
    "Verif.Checkpoint.Props.C51_partial",
    "Verif.Checkpoint.Props.C51_restart",
    "Verif.Checkpoint.Props.C51_false",
    "Verif.Checkpoint.Props.C51_false_same"
   ],
   "note": "Holds while the clock goes forward and no removal fails; refuted when the local time goes back."
  },
  {
   "property": "C52",
   "status": "partial",
   "theorems": [
    "Verif.Smget.Props.C52_references_partial",
    "Verif.Smget.Props.C52_unique_false"
   ],
   "note": "Never leaks; exact in duplicate mode and for failing requests; refuted in unique mode."
  },
  {
   "property": "C53",
   "status": "partial",
   "theorems": [
    "Verif.Cluster.Props.C53_partial",
    "Verif.Cluster.Props.C53_exactly_one",
    "Verif.Cluster.Props.C53_agree",
    "Verif.Cluster.Props.C53_moves",
    "Verif.Cluster.Props.C53_two_servers",
    "Verif.Cluster.Props.C53_empty_false",
    "Verif.Cluster.Props.C53_twin_false",
    "Verif.Cluster.Props.C53_long_false",
    "Verif.Cluster.Props.C53_sticky_false"
   ],
   "note": "All histories, any hash function. Needs a non-empty list of different names of at most 127 bytes, refuted without; up to the stop of C55."
  },
  {
   "property": "C54",
   "status": "partial",
   "theorems": [
    "Verif.Cluster.Props.C54_partial",
    "Verif.Cluster.Props.C54_denied_false",
    "Verif.Cluster.Props.C54_claimed_false"
   ],
   "note": "Holds when the numbers of the staying nodes do not change, for every interleaving; refuted otherwise."
  },
  {
   "property": "C55",
   "status": "partial",
   "theorems": [
    "Verif.Cluster.Props.C55_partial",
    "Verif.Cluster.Props.C55_false",
    "Verif.Cluster.Props.C55_one_false"
   ],
   "note": "Holds when no change both removes and adds nodes; refuted otherwise."
  },
  {
   "property": "C56",
   "status": "proved",
   "theorems": [
    "Verif.Keys.Props.C56"
   ],
   "note": "All lists, packets, block sizes above the key length plus two, old contents of the blocks."
  },
  {
   "property": "C57",
   "status": "partial",
   "theorems": [
    "Verif.Keys.Props.C57_partial",
    "Verif.Keys.Props.C57_first",
    "Verif.Keys.Props.C57_false"
   ],
   "note": "Refuted when the promised keys end at a block border and more follows; then the first keys are served."
  },
  {
   "property": "C58",
   "status": "partial",
   "theorems": [
    "Verif.Keys.Props.C58_partial",
    "Verif.Keys.Props.C58_false"
   ],
   "note": "Refuted when the last block holds one delimiter only."
  },
  {
   "property": "C59",
   "status": "partial",
   "theorems": [
    "Verif.Slabs.Props.C59_partial",
    "Verif.Slabs.Props.C59_false"
   ],
   "note": "All event sequences; needs a largest item size of 256 KB or more, refuted for smaller ones the server accepts."
  },
  {
   "property": "C60",
   "status": "proved",
   "theorems": [
    "Verif.Slabs.Props.C60_refused",
    "Verif.Slabs.Props.C60_returns"
   ],
   "note": "All reachable states."
  },
  {
   "property": "C61",
   "status": "proved",
   "theorems": [
    "Verif.Slabs.Props.C61"
   ],
   "note": "All reachable states."
  },
  {
   "property": "C62",
   "status": "partial",
   "theorems": [
    "Verif.Slabs.Props.C62_partial",
    "Verif.Slabs.Props.C62_false"
   ],
   "note": "Holds while the pages for small memory are below 4 GB; refuted above."
  },
  {
   "property": "C63",
   "status": "partial",
   "theorems": [
    "Verif.Conn.Props.C63_partial",
    "Verif.Conn.Props.C63_packets_partial",
    "Verif.Conn.Props.C63_false"
   ],
   "note": "All handlers, streams, packets and read results; refuted for lines beyond the length limits."
  },
  {
   "property": "C64",
   "status": "partial",
   "theorems": [
    "Verif.Conn.Props.C64_partial",
    "Verif.Conn.Props.C64_false",
    "Verif.Conn.Props.C64_false_pipe",
    "Verif.Conn.Props.C64_false_2GB"
   ],
   "note": "All command interpreters; refuted for refused mop delete with noreply, mop delete in a failed pipeline, and refused lists of 2 GB."
  },
  {
   "property": "C65",
   "status": "partial",
   "theorems": [
    "Verif.Conn.Props.C65_partial",
    "Verif.Conn.Props.C65_false"
   ],
   "note": "Refuted for mop delete with a list of fields after the pipeline has failed."
  },
  {
   "property": "C66",
   "status": "proved",
   "theorems": [
    "Verif.ConnOut.Props.C66",
    "Verif.ConnOut.Props.C66_ends"
   ],
   "note": "All responses, pieces and results of sendmsg."
  },
  {
   "property": "C67",
   "status": "partial",
   "theorems": [
    "Verif.Conn.Props.C67_partial",
    "Verif.Conn.Props.C67_false"
   ],
   "note": "Refuted by 64 KB of blanks."
  },
  {
   "property": "C68",
   "status": "proved",
   "theorems": [
    "Verif.ConnOut.Props.C68"
   ],
   "note": "All responses, pieces and results of sendmsg."
  },
  {
   "property": "C69",
   "status": "partial",
   "theorems": [
    "Verif.Token.Props.C69_partial",
    "Verif.Token.Props.C69_false"
   ],
   "note": "Proved for lines without a byte 0; refuted with one."
  },
  {
   "property": "C70",
   "status": "partial",
   "theorems": [
    "Verif.Auth.Props.C70_partial",
    "Verif.Auth.Props.C70_false",
    "Verif.Auth.Props.C70_false_end"
   ],
   "note": "Proved if the byte behind the data is 0; refuted otherwise."
  },
  {
   "property": "C71",
   "status": "partial",
   "theorems": [
    "Verif.Auth.Props.C71_partial",
    "Verif.Auth.Props.C71_false"
   ],
   "note": "All commands but get with a public first key and another key: refuted by `get arcus:x secret`."
  },
  {
   "property": "C72",
   "status": "partial",
   "theorems": [
    "Verif.Auth.Props.C72_partial",
    "Verif.Auth.Props.C72_false"
   ],
   "note": "Only confirmed users; refuted: the binary protocol does not look at rights."
  },
  {
   "property": "C73",
   "status": "partial",
   "theorems": [
    "Verif.Auth.Props.C73_partial",
    "Verif.Auth.Props.refuses_iff",
    "Verif.Auth.Props.C73_false"
   ],
   "note": "Proved if the requests with data are permitted; refuted by a refused set."
  },
  {
   "property": "C74",
   "status": "partial",
   "theorems": [
    "Verif.Auth.Props.C74_partial",
    "Verif.Auth.Props.C74_false",
    "Verif.Auth.Props.C74_false_memory"
   ],
   "note": "Proved up to 4294967293 bytes and with memory; refuted beyond."
  },
  {
   "property": "C75",
   "status": "partial",
   "theorems": [
    "Verif.Auth.Props.C75_partial",
    "Verif.Auth.Props.C75_false"
   ],
   "note": "All lines but `scrub`."
  },
  {
   "property": "C76",
   "status": "proved",
   "theorems": [
    "Verif.Lru.Props.C76",
    "Verif.Lru.Props.C76_get",
    "Verif.Lru.Props.C76_counted"
   ],
   "note": "Over the calls of items.c; collections as items whose size changes."
  },
  {
   "property": "C77",
   "status": "proved",
   "theorems": [
    "Verif.Lru.Props.C77"
   ],
   "note": "60 seconds is ITEM_UPDATE_INTERVAL."
  },
  {
   "property": "C78",
   "status": "partial",
   "theorems": [
    "Verif.Lru.Props.C78_partial",
    "Verif.Lru.Props.C78_sticky_partial",
    "Verif.Lru.Props.C78_false"
   ],
   "note": "curr_items and bytes for all calls; the sticky numbers if no item is replaced by one of the other kind; refuted otherwise."
  },
  {
   "property": "C79",
   "status": "partial",
   "theorems": [
    "Verif.Lru.Props.C79_partial",
    "Verif.Lru.Props.C79_false"
   ],
   "note": "If no item is replaced by one of the other kind (and the sum is below 2^64); refuted otherwise."
  },
  {
   "property": "C80",
   "status": "proved",
   "theorems": [
    "Verif.Lru.Props.C80"
   ],
   "note": ""
  },
  {
   "property": "C81",
   "status": "partial",
   "theorems": [
    "Verif.Lru.Props.C81_partial",
    "Verif.Lru.Props.C81_false"
   ],
   "note": "With fewer than 200 items of the class in use and for the classes above small memory; refuted otherwise."
  },
  {
   "property": "C82",
   "status": "partial",
   "theorems": [
    "Verif.Bin.Props.C82_partial",
    "Verif.Bin.Props.C82_pieces",
    "Verif.Bin.Props.C82_false",
    "Verif.Bin.Props.C82_false_flush",
    "Verif.Bin.Props.C82_false_update"
   ],
   "note": "All streams, arrivals and engines if key and extras lie in the body, STAT has no value and BOP_UPDATE does not say novalue; refuted otherwise."
  },
  {
   "property": "C83",
   "status": "proved",
   "theorems": [
    "Verif.Bin.Props.C83",
    "Verif.Bin.Props.C83_close",
    "Verif.Bin.Props.C83_quit",
    "Verif.Bin.Props.C83_obeys"
   ],
   "note": "All runs."
  },
  {
   "property": "C84",
   "status": "partial",
   "theorems": [
    "Verif.Bin.Props.C84_partial",
    "Verif.Bin.Props.C84_partial_buffer",
    "Verif.Bin.Props.C84_false",
    "Verif.Bin.Props.C84_false_update",
    "Verif.Bin.Props.C84_false_setattr",
    "Verif.Bin.Props.C84_false_buffer"
   ],
   "note": "Refuted for GETK misses with keys over 2024 bytes, b+tree lengths over 31, attribute ranges over 31, unknown commands of 1 GiB."
  },
  {
   "property": "C85",
   "status": "partial",
   "theorems": [
    "Verif.Bin.Props.C85_partial",
    "Verif.Bin.Props.C85_partial_refused",
    "Verif.Bin.Props.C85_false",
    "Verif.Bin.Props.C85_false_getattr",
    "Verif.Bin.Props.C85_false_range",
    "Verif.Bin.Props.C85_false_empty"
   ],
   "note": "Refuted for FLUSH_PREFIX, GETATTR, all commands on b+tree ranges, empty elements; STAT is not checked."
  },
  {
   "property": "C86",
   "status": "proved",
   "theorems": [
    "Verif.Bin.Props.C86"
   ],
   "note": "For engines that keep items."
  },
  {
   "property": "C87",
   "status": "proved",
   "theorems": [
    "Verif.Bin.Props.C87"
   ],
   "note": ""
  },
  {
   "property": "C88",
   "status": "proved",
   "theorems": [
    "Verif.Bin.Props.C88"
   ],
   "note": "Known commands."
  },
  {
   "property": "C89",
   "status": "proved",
   "theorems": [
    "Verif.CmdLog.Props.C89"
   ],
   "note": "Counters without bound; lines as the code formats them (C92 says what these are)."
  },
  {
   "property": "C90",
   "status": "partial",
   "theorems": [
    "Verif.CmdLog.Props.C90_partial",
    "Verif.CmdLog.Props.C90_false"
   ],
   "note": "Holds while the backlog is below the size of the buffer less 4496; refuted when the flush thread is slow while head is 0."
  },
  {
   "property": "C91",
   "status": "partial",
   "theorems": [
    "Verif.CmdLog.Props.C91_partial",
    "Verif.CmdLog.Props.C91_false"
   ],
   "note": "Refuted when the stop comes between the look of the flush thread at the buffer and at the flag."
  },
  {
   "property": "C92",
   "status": "partial",
   "theorems": [
    "Verif.CmdLog.Props.C92_partial",
    "Verif.CmdLog.Props.C92_false"
   ],
   "note": "Refuted for texts of exactly 400 bytes."
  },
  {
   "property": "C93",
   "status": "proved",
   "theorems": [
    "Verif.CmdLog.Props.C93"
   ],
   "note": ""
  },
  {
   "property": "C94",
   "status": "partial",
   "theorems": [
    "Verif.CmdLog.Props.C94_partial",
    "Verif.CmdLog.Props.C94_false"
   ],
   "note": "Needs that no line comes after the stop and that the stop does not come between look and use; refuted otherwise."
  },
  {
   "property": "C95",
   "status": "proved",
   "theorems": [
    "Verif.Resp.Props.C95"
   ],
   "note": "Keys without blank and line feed, data up to 128 MB."
  },
  {
   "property": "C96",
   "status": "partial",
   "theorems": [
    "Verif.Resp.Props.C96_partial_lop",
    "Verif.Resp.Props.C96_partial_mop",
    "Verif.Resp.Props.C96_partial_bop",
    "Verif.Resp.Props.C96_partial_gbp",
    "Verif.Resp.Props.C96_partial_pwg",
    "Verif.Resp.Props.C96_partial_trim",
    "Verif.Resp.Props.C96_partial_mget",
    "Verif.Resp.Props.C96_partial_smget",
    "Verif.Resp.Props.C96_partial_smgetOld",
    "Verif.Resp.Props.C96_false"
   ],
   "note": "In full for commands on one collection; for bop mget and bop smget with keys without line feed; refuted otherwise."
  },
  {
   "property": "C97",
   "status": "partial",
   "theorems": [
    "Verif.Resp.Props.C97_partial_one",
    "Verif.Resp.Props.C97_partial_mget",
    "Verif.Resp.Props.C97_partial_smget",
    "Verif.Resp.Props.C97_false"
   ],
   "note": "Refuted for bop smget when offset + count wraps around in 32 bits; proved otherwise."
  },
  {
   "property": "C98",
   "status": "proved",
   "theorems": [
    "Verif.Resp.Props.C98"
   ],
   "note": ""
  },
  {
   "property": "C99",
   "status": "proved",
   "theorems": [
    "Verif.TopKeys.Props.C99"
   ],
   "note": "Fewer than 2^31 operations and calloc succeeding."
  },
  {
   "property": "C100",
   "status": "partial",
   "theorems": [
    "Verif.TopKeys.Props.C100_partial",
    "Verif.TopKeys.Props.C100_false"
   ],
   "note": "Proved if calloc succeeds; refuted otherwise."
  },
  {
   "property": "C101",
   "status": "partial",
   "theorems": [
    "Verif.TopKeys.Props.C101_partial",
    "Verif.TopKeys.Props.C101_false"
   ],
   "note": "Proved for counts of up to five digits and less than 10^9 seconds; refuted for counts of seven digits."
  },
  {
   "property": "C102",
   "status": "partial",
   "theorems": [
    "Verif.TopKeys.Props.C102_partial",
    "Verif.TopKeys.Props.C102_false"
   ],
   "note": "Refuted; proved for keys whose last use has the time of their entering."
  },
  {
   "property": "C103",
   "status": "partial",
   "theorems": [
    "Verif.LqDetect.Props.C103_partial",
    "Verif.LqDetect.Props.C103_false"
   ],
   "note": "Proved for all indexes but the least and the greatest int; refuted for these two."
  },
  {
   "property": "C104",
   "status": "partial",
   "theorems": [
    "Verif.LqDetect.Props.C104_partial",
    "Verif.LqDetect.Props.C104_false"
   ],
   "note": "Proved for the arguments (and the key where a whole set or map is asked for); refuted for keys."
  },
  {
   "property": "C105",
   "status": "partial",
   "theorems": [
    "Verif.LqDetect.Props.C105_partial",
    "Verif.LqDetect.Props.C105_false"
   ],
   "note": "Refuted both ways; proved that lop get, forward lop delete and lop insert cost at least what they visit (one less for insert)."
  },
  {
   "property": "C106",
   "status": "proved",
   "theorems": [
    "Verif.LqDetect.Props.C106"
   ],
   "note": "Indexes other than the least and the greatest int (see C103)."
  },
  {
   "property": "C107",
   "status": "partial",
   "theorems": [
    "Verif.LqDetect.Props.C107_partial",
    "Verif.LqDetect.Props.C107_false"
   ],
   "note": "Refuted; proved if no detection begins while a thread is within a call."
  },
  {
   "property": "C108",
   "status": "partial",
   "theorems": [
    "Verif.StatsPrefix.Props.C108_partial",
    "Verif.StatsPrefix.Props.C108_false"
   ],
   "note": "Proved for histories with fewer than 10000 prefixes in which no key without a prefix begins with a hyphen; refuted for these two cases."
  },
  {
   "property": "C109",
   "status": "proved",
   "theorems": [
    "Verif.StatsPrefix.Props.C109"
   ],
   "note": ""
  },
  {
   "property": "C110",
   "status": "proved",
   "theorems": [
    "Verif.StatsPrefix.Props.C110"
   ],
   "note": ""
  },
  {
   "property": "C111",
   "status": "partial",
   "theorems": [
    "Verif.Config.Props.C111_partial",
    "Verif.Config.Props.C111_false"
   ],
   "note": "Proved for options without blanks around = and at the ends, with values that are not empty, and amounts that fit and do not end in t; refuted otherwise."
  },
  {
   "property": "C112",
   "status": "partial",
   "theorems": [
    "Verif.Config.Props.C112_partial",
    "Verif.Config.Props.C112_false"
   ],
   "note": "Proved for texts without backslashes whose last option has =, without files; refuted otherwise."
  },
  {
   "property": "C113",
   "status": "partial",
   "theorems": [
    "Verif.Config.Props.C113_partial",
    "Verif.Config.Props.C113_false"
   ],
   "note": "Proved for options written as in C111, with any values, without files; refuted with a blank at the end and for files."
  },
  {
   "property": "C114",
   "status": "partial",
   "theorems": [
    "Verif.Restart.Props.C114_partial",
    "Verif.Restart.Props.C114_false",
    "Verif.Restart.Props.C114_pending_false"
   ],
   "note": "Proved for histories whose flushes have no delay; refuted for delayed flushes."
  },
  {
   "property": "C115",
   "status": "partial",
   "theorems": [
    "Verif.Restart.Props.C115_partial",
    "Verif.Restart.Props.C115_false"
   ],
   "note": "Proved if no restart comes after a checkpoint; refuted otherwise."
  },
  {
   "property": "C116",
   "status": "partial",
   "theorems": [
    "Verif.Wake.Props.C116_partial",
    "Verif.Wake.Props.C116_false"
   ],
   "note": "Proved if the last update reported was not made by a command with pipe; refuted for a pipeline whose last command fails."
  },
  {
   "property": "C117",
   "status": "proved",
   "theorems": [
    "Verif.Wake.Props.C117",
    "Verif.Wake.Props.C117_new"
   ],
   "note": ""
  },
  {
   "property": "C118",
   "status": "proved",
   "theorems": [
    "Verif.Wake.Props.C118"
   ],
   "note": ""
  },
  {
   "property": "C119",
   "status": "proved",
   "theorems": [
    "Verif.Attr.Props.C119"
   ],
   "note": ""
  },
  {
   "property": "C120",
   "status": "partial",
   "theorems": [
    "Verif.Attr.Props.C120_partial",
    "Verif.Attr.Props.C120_false"
   ],
   "note": "Conditions and effect proved; refuted that OK means that the type of the item has the attribute."
  },
  {
   "property": "C121",
   "status": "partial",
   "theorems": [
    "Verif.Attr.Props.C121_partial",
    "Verif.Attr.Props.C121_false"
   ],
   "note": "Proved but for minbkey and maxbkey of items that are no b+trees; refuted for these."
  },
  {
   "property": "C122",
   "status": "partial",
   "theorems": [
    "Verif.Attr.Props.C122_partial",
    "Verif.Attr.Props.C122_false"
   ],
   "note": "Proved for bkey lengths up to 31; refuted for 32 to 254."
  }
 ]
}