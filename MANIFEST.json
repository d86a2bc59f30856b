{
 "claims": [
  {
   "property": "C01",
   "status": "proved",
   "theorems": [
    "Dax.C01_lookup",
    "Dax.C01_index",
    "Dax.C01_unique",
    "Dax.C01_history"
   ],
   "note": "All reachable server states; C01_history relates lookups to the replies seen so far. Registration of modules (which adds a status tag) is excluded from the history theorem only."
  },
  {
   "property": "C02",
   "status": "proved",
   "theorems": [
    "Dax.C02_stable",
    "Dax.C02_dead"
   ],
   "note": "All histories. Deleting a deleted index is answered with the argument error code."
  },
  {
   "property": "C03",
   "status": "partial",
   "theorems": [
    "Dax.C03_read_after_write_partial",
    "Dax.C03_history_partial",
    "Dax.C03_read_after_write_maps_partial",
    "Dax.C03_history_maps_partial",
    "Dax.C03_mapped"
   ],
   "note": "One write followed by any read of the written range, and whole histories of reads, writes and masked writes against a client-side memory: for tags without mappings, and for tags with mappings in every byte that no mapping set off by the write (one write) or no mapping at all (histories) leads into. For a byte a mapping leads back into the property is false (C03_mapped). Assumed of mappings: the fields of their handles are 32-bit numbers and source ranges do not wrap around."
  },
  {
   "property": "C04",
   "status": "partial",
   "theorems": [
    "Dax.C04_isolated_partial",
    "Dax.C03_history_partial",
    "Dax.C04_isolated_maps_partial",
    "Dax.C03_history_maps_partial",
    "Dax.C03_mapped"
   ],
   "note": "For tags without mappings, all reads and queries (C04_isolated_partial); with mappings, reads of ordinary tags of all bytes outside the written range and outside the destinations of mappings that the write sets off. A mapping copies to other tags on purpose (C34), so the statement without this exception is false (C03_mapped). With mappings, reads of queue and override tags are left out."
  },
  {
   "property": "C05",
   "status": "partial",
   "theorems": [
    "Dax.C05_range_partial",
    "Dax.C05_extent_partial",
    "Dax.C05_accepted",
    "Dax.C05_index_partial",
    "Dax.C05_unbounded_access"
   ],
   "note": "Ranges with non-negative offset and size below 2^31 and indexes inside the array are proved; what can be read can be written. C05_unbounded_access proves that the full claim fails: negative offsets, indexes outside the array and reads above 4088 bytes access memory out of bounds."
  },
  {
   "property": "C06",
   "status": "partial",
   "theorems": [
    "Dax.C06_masked_partial",
    "Dax.C06_masked_maps_partial",
    "Dax.C03_history_maps_partial",
    "Dax.C03_mapped"
   ],
   "note": "For ordinary tags, in every byte that no mapping set off by the write leads into; with a mapping back into the same byte the property is false (C03_mapped)."
  },
  {
   "property": "C07",
   "status": "partial",
   "theorems": [
    "Dax.C07_new",
    "Dax.C07_grow_partial",
    "Dax.C07_grow_junk"
   ],
   "note": "A new tag reads as zeros (C07_new). Growing a tag keeps the old bytes (C07_grow_partial). The clause that the added bytes are zero is false for the code: realloc'd memory is not cleared (C07_grow_junk proves the negation on a reachable state)."
  },
  {
   "property": "C08",
   "status": "proved",
   "theorems": [
    "Dax.C08_same",
    "Dax.C08_accepted",
    "Dax.C08_type",
    "Dax.C08_owned"
   ],
   "note": "Ownership is stated through history: the tag was created from another connection with the owned attribute (and without the retain attribute, which makes the code ignore the others)."
  },
  {
   "property": "C09",
   "status": "proved",
   "theorems": [
    "Dax.C09_no_trace",
    "Dax.C09_refused"
   ],
   "note": "Later behaviour is compared as complete traces (replies and event messages) of arbitrary histories; a history that is undefined behaviour without the request is not constrained."
  },
  {
   "property": "C10",
   "status": "proved",
   "theorems": [
    "Dax.C10",
    "Dax.C10_history_partial",
    "Dax.C10_group_write",
    "Dax.C10_restart"
   ],
   "note": "C10: every start, with or without a retention file that has no row for the two status tags, followed by every sequence of tag add and delete requests and all other requests except registrations, group writes and overrides. C10_history_partial adds registrations and disconnects when no module is excluded from having a status tag (C12_excluded). Group writes, which are outside the quantifier of the property, ignore the read-only attribute and can overwrite the status tags (C10_group_write). C10_restart: the file a server leaves behind never has such a row, so the counts are right after every restart."
  },
  {
   "property": "C11",
   "status": "proved",
   "theorems": [
    "Dax.C11_create",
    "Dax.C11_reserved",
    "Dax.C11_undeletable"
   ],
   "note": "For requests whose handling is free of undefined behaviour; known type, nonzero count, unused name."
  },
  {
   "property": "C12",
   "status": "partial",
   "theorems": [
    "Dax.C12_status",
    "Dax.C12_owned",
    "Dax.C12_others_partial",
    "Dax.C12_excluded"
   ],
   "note": "Status tag and owned tags die, other tags stay as they were. C12_others_partial leaves out tags 0 and 3, in which the server itself reports the deletions, and needs the module to have a status tag: C12_excluded is a run in which a module excluded from having one takes _tagcount away with it."
  },
  {
   "property": "C13",
   "status": "partial",
   "theorems": [
    "Dax.C13_owned_partial",
    "Dax.C13_unowned_partial",
    "Dax.C13_group_write",
    "Dax.C13_override",
    "Dax.C13_old_mapping"
   ],
   "note": "Holds for writes, masked writes, atomic operations, mappings and all other plain requests, for any sequence from connections that do not own the tag. Fails for group writes, overrides, and mappings made before the tag became read-only (proved on reachable states)."
  },
  {
   "property": "C14",
   "status": "partial",
   "theorems": [
    "Dax.C14_history_partial"
   ],
   "note": "Every sequence of reads, writes, masked writes, override installs, partial or complete removals and switching on and off by any clients, against a specification view of written data and installed value/mask. Missing: servers with mappings, and bytes for which nothing was installed (C16)."
  },
  {
   "property": "C15",
   "status": "partial",
   "theorems": [
    "Dax.C15_counters_partial",
    "Dax.C15_tag_deleted",
    "Dax.C15_removed_in_force",
    "Dax.C15_removed_refused"
   ],
   "note": "Proved for all histories of tag creation, data requests, installs and switching on and off from a start of the server. The code violates it for removals and tag deletions: three concrete counterexamples are proved."
  },
  {
   "property": "C16",
   "status": "partial",
   "theorems": [
    "Dax.C16_range_partial",
    "Dax.C16_first_install",
    "Dax.C16_refused_install",
    "Dax.C16_removal_range",
    "Dax.C16_read_back",
    "Dax.C16_bool"
   ],
   "note": "Holds for tags whose override memory exists already (C16_range_partial; masked bits of the range by C14_history_partial). The code violates the rest: the first partial install exposes uninitialised memory, a refused install leaves an override behind, removal has no range check, reading back returns plain data from the start of the tag. For tags of type BOOL no override is ever accepted (`C106_bool`), and the first one writes outside its memory (`C16_bool`), as the size of the type counts as zero."
  },
  {
   "property": "C17",
   "status": "partial",
   "theorems": [
    "Dax.C17_immutable",
    "Dax.C17_recreate_partial",
    "Dax.C17_members",
    "Dax.C17_uninitialised",
    "Dax.C17_same_text_refused"
   ],
   "note": "Definitions never change (C17_immutable), a second definition of a name changes nothing and is accepted only for the text the server itself reports (C17_recreate_partial, assuming an uninitialised error variable is non-negative), member names of a type are distinct (C17_members). The code violates the rest: the uninitialised variable can turn the identical definition into an error, and the identical request is refused when its type names are not in the server's spelling."
  },
  {
   "property": "C18",
   "status": "partial",
   "theorems": [
    "Dax.C18_layout_partial",
    "Dax.C18_wrap",
    "Dax.Places.disjoint"
   ],
   "note": "Whenever the members can be placed below bit 2^32, the reported size is the least number of bytes in which they can be placed in order, disjointly and with non-BOOL members on byte boundaries. Beyond that the 32-bit bit count wraps and the code violates the property (C18_wrap)."
  },
  {
   "property": "C19",
   "status": "partial",
   "theorems": [
    "Dax.C19_base",
    "Dax.C19_compound_partial",
    "Dax.C19_bool",
    "Dax.C19_empty",
    "Dax.C20_zero_count",
    "Dax.C20_doubled"
   ],
   "note": "For every base type but BOOL, and for every compound type the client can fetch, from any cache that agrees with the server, client and server compute the same element size (unless the server's size is 0 or a member has 2^31 bits or more). Counterexamples proved: BOOL (1 against 0), a type without members (1 against 0), a member count of 0 (the client keeps a truncated type), a type created again (the client doubles its members)."
  },
  {
   "property": "C20",
   "status": "partial",
   "theorems": [
    "Dax.C20_fetch_partial",
    "Dax.C20_recreate_partial",
    "Dax.C20_zero_count",
    "Dax.C20_doubled",
    "Dax.C20_unknown_name",
    "Dax.C20_create"
   ],
   "note": "Fetching any type with positive int counts, by code or name, into any faithful cache gives an entry with the name and members of the server's text in the same order, leaves other entries alone and keeps the cache faithful; sending the text back is recognised as the same type unless an uninitialised variable in the server happens to be negative. Counterexamples proved: member count 0, creating a known type again, asking for an unknown name."
  },
  {
   "property": "C21",
   "status": "partial",
   "theorems": [
    "Dax.C21_member_partial",
    "Dax.C21_tag",
    "Dax.C21_bit",
    "Dax.C21_many_bools",
    "Dax.C21_nested_bools",
    "Dax.C21_bit_after_bools",
    "Dax.C21_count_refused",
    "Dax.C21_bit_number"
   ],
   "note": "Member paths of any depth, with indices and bit numbers, resolve to the specified bit position. Excluded, with witnesses: more than 248 BOOLs in a member, nested types or bit numbers behind BOOLs that are not at a whole byte, counts checked against outer indices, bit numbers of 8 and more in handles; very large types."
  },
  {
   "property": "C22",
   "status": "partial",
   "theorems": [
    "Dax.C22_tag",
    "Dax.C22_member_partial",
    "Dax.C22_bit_partial",
    "Dax.C22_index",
    "Dax.C22_bit_index",
    "Dax.C22_bit_wraps",
    "Dax.C22_negative"
   ],
   "note": "For names with index and for member paths and bits at an index that exists, the handle lies inside the tag, and too many items are refused. Witnesses: the index is not checked when a member or bit follows, bit numbers are taken modulo 256, negative counts are accepted for members."
  },
  {
   "property": "C23",
   "status": "partial",
   "theorems": [
    "Dax.C23_partial",
    "Dax.C23_server",
    "Dax.C23_path",
    "Dax.C21_many_bools"
   ],
   "note": "Iteration reports every member at its place, which agrees with the server's layout and with the places paths should lead to. Excluded: types larger than 2^31 bits or that cannot be fetched. Path resolution itself disagrees where C21 fails (witness C21_many_bools)."
  },
  {
   "property": "C24",
   "status": "partial",
   "theorems": [
    "Dax.C24_read",
    "Dax.C24_write",
    "Dax.C24_accepted_partial",
    "Dax.C24_round_trip_partial",
    "Dax.C24_refused",
    "Dax.C24_refused_2040",
    "Dax.C24_mask_ignored",
    "Dax.C24_masked"
   ],
   "note": "For every handle of BOOLs at any bit (0 to 7), of any number: a read that succeeds gives exactly the bits of the handle and zeros after them; a write that succeeds changes exactly these bits; both together give the round trip. Writes are accepted whenever the bytes sent are inside the tag and not 2041. Not provable: valid handles are refused where the library sends one byte too many (C24_refused, C24_refused_2040); masked writes ignore the caller's mask when bits are moved (C24_mask_ignored)."
  },
  {
   "property": "C25",
   "status": "partial",
   "theorems": [
    "Dax.C25_read_partial",
    "Dax.C25_write_partial",
    "Dax.C25_mask_partial",
    "Dax.C25_written",
    "Dax.C25_read_data",
    "Dax.C25_large_type",
    "Dax.C25_nested_outside",
    "Dax.C25_masked"
   ],
   "note": "For handles whose size is a whole number of elements that fit in a message: reads, writes and masked writes of any size are broken up into requests that partition the range, in order, each within the limit and of whole elements, and end; the data is what a single transfer would have given. Not provable for elements larger than a message, which are refused (C25_large_type), and for the conversion of nested types, which accesses bytes outside the data (C25_nested_outside)."
  },
  {
   "property": "C26",
   "status": "partial",
   "theorems": [
    "Dax.C26_write_partial",
    "Dax.notices_addressed",
    "Dax.C26_large_lost",
    "Dax.C26_wrap",
    "Dax.C26_empty_write"
   ],
   "note": "Proved for ranges that do not wrap around 2^32, fit in a message and writes of at least one byte; the three exclusions are shown to be real by witnesses."
  },
  {
   "property": "C27",
   "status": "partial",
   "theorems": [
    "Dax.C27_change_partial",
    "Dax.C27_straddle"
   ],
   "note": "Proved for every history of writes, against the contents at the last notification; a BOOL range across a byte boundary makes the next write read past the remembered copy (witness)."
  },
  {
   "property": "C28",
   "status": "partial",
   "theorems": [
    "Dax.C28_set_partial",
    "Dax.C28_reset_partial",
    "Dax.C28_set_first",
    "Dax.C28_reset_first",
    "Dax.C28_set_no_edge",
    "Dax.C28_reset_no_edge"
   ],
   "note": "Proved from the second write on; the first write after the subscription is characterised and fires without an edge (witnesses)."
  },
  {
   "property": "C29",
   "status": "partial",
   "theorems": [
    "Dax.C29_compare_partial",
    "Dax.C29_float_partial",
    "Dax.C29_float_equal",
    "Dax.C29_misaligned",
    "Dax.C29_time_truncated"
   ],
   "note": "Proved for all integer types but TIME over their full range, and for REAL and LREAL (GREATER and LESS, compared as IEEE numbers, NaN never in the condition; EQUAL is refused for them), for every history of aligned writes. Misaligned writes and TIME go wrong (witnesses)."
  },
  {
   "property": "C30",
   "status": "partial",
   "theorems": [
    "Dax.C30_deadband_partial",
    "Dax.C30_unsigned_rise",
    "Dax.C30_wrapped_fall",
    "Dax.C30_overflow",
    "Dax.C30_reference_per_element"
   ],
   "note": "Proved for differences the server's arithmetic represents, with a reference per element; unsigned rises, wrapped and overflowing differences and the reference of several elements go wrong (witnesses)."
  },
  {
   "property": "C31",
   "status": "partial",
   "theorems": [
    "Dax.C31_ids_never_reused",
    "Dax.C31_delete_partial",
    "Dax.C31_kept",
    "Dax.C31_delete_newest"
   ],
   "note": "Identifiers are never reused (proved in full). Deletion takes out exactly the named subscription, keeps all others and silences it for good, unless it is the newest of its tag: then the code reads freed memory (C31_delete_newest); with freed blocks still readable the result also holds for the newest."
  },
  {
   "property": "C32",
   "status": "proved",
   "theorems": [
    "Dax.C32_only_owner",
    "Dax.C32_refusal_hidden"
   ],
   "note": "The requests of other connections leave the whole server state unchanged. The refusal is reported to the client as success (C32_refusal_hidden)."
  },
  {
   "property": "C33",
   "status": "partial",
   "theorems": [
    "Dax.C33_cleanup_partial",
    "Dax.C33_silent",
    "Dax.C33_disconnect_freed",
    "Dax.C33_stale"
   ],
   "note": "Nothing is ever sent to the connection of a departed module (proved in full for completed runs). No subscription of it remains if no deletion request named a non-existent identifier; otherwise the per-module counter is wrong and stale subscriptions survive with a dangling pointer (C33_stale). The clean-up itself reads freed blocks (C33_disconnect_freed)."
  },
  {
   "property": "C34",
   "status": "partial",
   "theorems": [
    "Dax.C34_copy_partial",
    "Dax.C34_frame",
    "Dax.C34_straddle",
    "Dax.C34_wrap"
   ],
   "note": "After a successful write that touches a mapped source range the destination holds the source bits, for byte ranges and BOOL ranges at any bit offsets, and nothing else changes; conditions: ranges inside the tags and destinations not shared by several mappings set off by the same write. Disproved on witnesses: BOOL mappings whose destination straddles more bytes than the source overrun the mask; the range check wraps around."
  },
  {
   "property": "C35",
   "status": "partial",
   "theorems": [
    "Dax.C35_completes_partial",
    "Dax.C35_once",
    "Dax.C35_deleted_destination"
   ],
   "note": "Writes complete for every mapping graph (cycles included) whose destinations are ordinary, unwatched tags; each mapping of the written tag is applied at most once and no mapping of a destination. Disproved on a witness: a mapping whose destination tag was deleted makes the server read freed memory."
  },
  {
   "property": "C36",
   "status": "partial",
   "theorems": [
    "Dax.C36_ids_never_reused",
    "Dax.C36_identical",
    "Dax.C36_delete_exact",
    "Dax.C36_delete_partial",
    "Dax.C36_kept",
    "Dax.C36_delete_drops",
    "Dax.C36_delete_none",
    "Dax.C36_write_drops"
   ],
   "note": "Identifiers are never reused, identical mappings return the existing identifier; deletion characterised exactly, and individual when at most one newer mapping exists. Disproved on witnesses: deleting the oldest of four drops the two in between; deleting from an empty list follows a null pointer; a write can drop mappings."
  },
  {
   "property": "C37",
   "status": "partial",
   "theorems": [
    "Dax.C37_read_partial",
    "Dax.C37_write_partial",
    "Dax.C37_skips_mapping",
    "Dax.C37_own_name",
    "Dax.C13_group_write"
   ],
   "note": "Proved: reading a group is reading its members in order (stored tags), writing a group is writing its members in order from consecutive parts of the data (members that are not read-only, status tags or mapping sources). The full statement is false in the code: a group write does not set off mappings (C37_skips_mapping), ignores read-only (C13_group_write), and a group with the virtual own-name tag cannot be read (C37_own_name). Member sizes near 2^31 are excluded."
  },
  {
   "property": "C38",
   "status": "partial",
   "theorems": [
    "Dax.C38_add_partial",
    "Dax.C38_refused_partial",
    "Dax.C38_delete",
    "Dax.C38_kept",
    "Dax.C38_history_partial",
    "Dax.C38_overwrites",
    "Dax.C38_loses_all"
   ],
   "note": "Proved: a deletion removes exactly that group; requests other than group additions/deletions of the same client and everything done by others keep all groups; additions give an unused id and keep all other groups as long as the connection never deleted a group. The full statement is false in the code: after a deletion the array grows from a wrong place and overwrites a live group (C38_overwrites) or drops all (C38_loses_all)."
  },
  {
   "property": "C39",
   "status": "partial",
   "theorems": [
    "Dax.C39_accept_partial",
    "Dax.C39_fits",
    "Dax.C39_overflow",
    "Dax.C39_client",
    "Dax.C39_library"
   ],
   "note": "Proved: with sizes not near 2^31 the server accepts a group exactly when it has at most 150 members and 4084 bytes (`C39_accept_partial`); every answer to a group read fits one message (`C39_fits`); the library sends a group exactly within the same limits, in one message (`C39_client`), and what it sends the server accepts, for all sizes (`C39_library`). Fails for other clients: the 32-bit sum wraps (`C39_overflow`)."
  },
  {
   "property": "C40",
   "status": "partial",
   "theorems": [
    "Dax.C40_fifo_partial",
    "Dax.C40_order_partial",
    "Dax.C40_next_partial",
    "Dax.C40_growth_undefined",
    "Dax.C40_growth_mixes",
    "Dax.C40_short_read"
   ],
   "note": "From creation on, every history of accepted and refused writes, reads of one value and anything else clients do (group transfers apart) is the behaviour of a FIFO queue as long as at most sixteen values wait; the next read gives the first unread value or EMPTY. Not provable: growth beyond sixteen goes through uninitialised pointers (C40_growth_undefined) or mixes values (C40_growth_mixes); reads of another size lose part of a value (C40_short_read)."
  },
  {
   "property": "C41",
   "status": "partial",
   "theorems": [
    "Dax.C41_logic_partial",
    "Dax.C41_refused",
    "Dax.C41_offset",
    "Dax.C41_byte_end",
    "Dax.C41_negated",
    "Dax.C41_overrun"
   ],
   "note": "Proved for every content, operand and type in the ranges named by Handle.Works (the ones for which the code is right); a refused operation changes nothing. Counterexamples proved: operands of an offset OR, bit ranges ending at a byte boundary, negated functions on bits within one byte, and ranges past the end that are not refused (the bounds check compares bytes with bits)."
  },
  {
   "property": "C42",
   "status": "partial",
   "theorems": [
    "Dax.C42_add_partial",
    "Dax.C41_refused",
    "Dax.C42_time",
    "Dax.C42_overflow"
   ],
   "note": "Proved for every integer type of the specification table, value and operand, whenever the request is answered. Counterexamples proved: TIME is treated as 32 bit; incrementing the largest DINT is signed overflow, undefined in C."
  },
  {
   "property": "C43",
   "status": "partial",
   "theorems": [
    "Dax.C43_identity",
    "Dax.C43_history",
    "Dax.C43_others_partial",
    "Dax.C43_not_own",
    "Dax.C43_shared"
   ],
   "note": "Identity part: proved for every request of every kind by every client, and over whole histories. The rest: proved for every client for which the server does not have the tag on record as its own (never registered, or its registration made another tag). Counterexample proved: two modules can share one status tag (names A, A000, A), so that one changes the other's. Connections are assumed to differ from -1."
  },
  {
   "property": "C44",
   "status": "partial",
   "theorems": [
    "Dax.C44_reassembly_partial",
    "Dax.C44_coalesced",
    "Dax.C44_one_short",
    "Dax.C44_silence",
    "Dax.C44_short_start",
    "Dax.C44_unknown_command",
    "Dax.C44_replay"
   ],
   "note": "Proved for any number of clients and any interleaving of pieces, if no piece contains bytes of two requests, the first piece of a request has four bytes, no piece ends one byte before the end of a request, and there is no second of silence and no read error inside one; each of these conditions is necessary: a witness is proved for each. Unknown commands also break the stream."
  },
  {
   "property": "C45",
   "status": "partial",
   "theorems": [
    "Dax.C45_reassembly_partial",
    "Dax.C45_header_cut",
    "Dax.C45_timeout_inside"
   ],
   "note": "Every message sequence, every cut outside headers (or also behind the header), timeouts between messages. The code violates the rest: a cut inside a header over-reads, a timeout inside a message loses the part already read; both proved on a concrete stream."
  },
  {
   "property": "C46",
   "status": "partial",
   "theorems": [
    "Dax.C46_carried_partial",
    "Dax.C46_refused",
    "Dax.C46_map_reply",
    "Dax.C46_tag_name",
    "Dax.C46_override_big",
    "Dax.C46_event_compound",
    "Dax.C46_far_offset",
    "Dax.C46_bit_lost"
   ],
   "note": "All 27 calls of the client library that make a request, against the argument decoding of all handlers: with arguments in range the message fits, and the server handles exactly the request the call stands for, whatever lies behind the message in its buffer; BOOL overrides bit by bit. Refused calls send nothing. Fails, with proofs, for tag names of 29-32 characters, overrides above 2038 bytes, event data on some compound types, offsets from 2^31, and overrides with a bit number above 7. Of the answers only that of dax_map_get is treated here (types: C19/C20, tags: C48)."
  },
  {
   "property": "C47",
   "status": "proved",
   "theorems": [
    "Dax.C47_queue",
    "Dax.C47_newest"
   ],
   "note": "Model of push_event/_pop_event/dax_event_poll/dax_event_wait with the fixed 8-slot pointer array; for every sequence of arrivals, polls, waits, event_add and event_del the concrete queue behaves as the abstract one: events in order, overflow drops the oldest, no event delivered twice or invented. Event messages are assumed to carry at least the 8 bytes (index, id) every server event has; waiting is modelled as a timeout on an empty queue."
  },
  {
   "property": "C48",
   "status": "partial",
   "theorems": [
    "Dax.C48_answers_partial",
    "Dax.C48_entries_partial",
    "Dax.C48_limit_zero",
    "Dax.C48_stale_name"
   ],
   "note": "Pointer-level model of the circular list; for every sequence of lookups, additions and deletions and any limit, no dangling pointer or endless search, answers are for the name or index asked and current with respect to the tag's index, entries are kept. Assumes the server gives one name per index (C02) and names of at most 32 characters. Recorded failures: a name used again is answered with the deleted tag's index; a limit of 0 holds one entry."
  },
  {
   "property": "C49",
   "status": "proved",
   "theorems": [
    "Dax.C47_queue",
    "Dax.C49_invokes",
    "Dax.C49_deleted"
   ],
   "note": "Each dispatched event calls exactly the callback registered under its tag index and event id with its own user data, and after deletion none. Same hypotheses as C47."
  },
  {
   "property": "C50",
   "status": "partial",
   "theorems": [
    "Dax.C50_base",
    "Dax.C50_compound_partial",
    "Dax.C50_events",
    "Dax.C50_events_only",
    "Dax.C50_deleted"
   ],
   "note": "All base types, all named event types, every capitalisation; compound types too when the client can fetch them and its cache says what the server says. Recorded failure: EVENT_DELETED, which the server accepts, has no name in either direction."
  },
  {
   "property": "C51",
   "status": "partial",
   "theorems": [
    "Dax.C51_saturates_partial",
    "Dax.C51_word_huge",
    "Dax.C51_minus_zero"
   ],
   "note": "Proved for all decimal texts, all integer types, all buffer positions, except where the code disagrees: WORD/UINT and a number outside 64 bits gives the wrong limit and code (C51_word_huge), LWORD/ULINT and the text -0 gives an underflow code (C51_minus_zero). A CHAR text of one character is that character by design. Text with a leading zero is octal by the C library's rules and not counted as decimal."
  },
  {
   "property": "C52",
   "status": "partial",
   "theorems": [
    "Dax.C52_unique",
    "Dax.C52_refused",
    "Dax.C52_precedence_partial",
    "Dax.C52_config_freed",
    "Dax.C52_confdir",
    "Dax.C52_false_is_yes",
    "Dax.C52_predefined",
    "Dax.C52_optional",
    "Dax.C52_no_letter",
    "Dax.C52_case",
    "Dax.C52_unknown",
    "Dax.C52_second_without_letter",
    "Dax.C52_null_name"
   ],
   "note": "Uniqueness holds in full. Precedence holds for every declared set of attributes, every command line that spells known options, and every file, except where the code departs from it: config is freed after the file is read, confdir in the file is ignored, false in the file for an attribute without argument means Yes, names of predefined Lua globals, optional arguments left out, long-only options, unknown options. Each exception has a theorem with a witness. getopt_long and Lua are modelled from their documentation; attribute callbacks are not modelled."
  },
  {
   "property": "C53",
   "status": "partial",
   "theorems": [
    "Dax.C53_polynomial",
    "Dax.C53_accepted",
    "Dax.C53_burst_partial",
    "Dax.C53_long"
   ],
   "note": "The table-driven checksum equals polynomial division (x^16+x^15+x^2+1, reflected, start 0xFFFF) for every message; a frame with its own checksum is accepted; every error burst of 1 to 16 bits anywhere in a frame of at most 65537 bytes is detected. The statement without a length limit is false: crc16 takes its length as an unsigned short, so longer frames are checked over a cut-down length (C53_long, witness)."
  },
  {
   "property": "C54",
   "status": "partial",
   "theorems": [
    "Dax.C54_response_partial",
    "Dax.C54_registers_partial",
    "Dax.C54_rtu_partial",
    "Dax.C54_tcp_partial",
    "Dax.C54_registers_overrun",
    "Dax.C54_lying_count",
    "Dax.C54_unanswered",
    "Dax.C54_checksum_overrun",
    "Dax.C54_diagnostics"
   ],
   "note": "create_response and its helpers, the RTU loop's answer and the TCP buffer handling: for every frame whose count is within Limits (so that the answer with checksum or header fits and a written count is covered by the frame) no access leaves the buffers, the frame sent is an answer or exception the protocol allows, and checksum or length are right, for any contents of uninitialised memory. Outside these limits the code does overrun: the _overrun, _lying_count, _checksum_overrun, _unanswered and _diagnostics theorems give witnesses. The register tags are assumed to be ordinary tags that nobody maps (RegTag). select/read timing and the serial gap timer are not modelled."
  },
  {
   "property": "C55",
   "status": "partial",
   "theorems": [
    "Dax.C55_registers_partial",
    "Dax.C55_bits_partial",
    "Dax.C55_padding",
    "Dax.C55_uninitialised"
   ],
   "note": "Every requested register or bit is in the answer in protocol order, with exactly the tag's value; beyond the configured size exception 2. Missing because false: padding bits are what the request had there (C55_padding); without a read callback an uninitialised variable decides about an exception (C55_uninitialised), which the theorems exclude by hypothesis (Allowed)."
  },
  {
   "property": "C56",
   "status": "partial",
   "theorems": [
    "Dax.C56_configured",
    "Dax.C56_rtu_partial",
    "Dax.C56_tcp_partial",
    "Dax.C56_rtu_word",
    "Dax.C56_rtu_coils",
    "Dax.C56_rtu_coils_overrun",
    "Dax.C56_rtu_length",
    "Dax.C56_tcp_coil"
   ],
   "note": "For every command mb_set_command accepts, any contents of its memory and of the uninitialised buffer: the bytes sent are the frame of the protocol with an accepted checksum (RTU) or transaction number, protocol number and length (TCP). Missing because false: RTU function 6 loses the high byte, RTU function 15 uses an uninitialised byte as count, 125 registers overflow an 8 bit length, TCP function 5 leaves its last byte uninitialised; each has a witness."
  },
  {
   "property": "C57",
   "status": "partial",
   "theorems": [
    "Dax.C57_backoff_partial",
    "Dax.C57_clock_set_back",
    "Dax.delay_values"
   ],
   "note": "Safety (never early, with the delay the specification computes from the history) and liveness (the first scan two milliseconds after the delay restarts it), for every history. Missing: clock readings more than 24 days apart, where the interval overflows an int (C57_clock_set_back), and a process whose very first fork failed, whose state field is uninitialised."
  },
  {
   "property": "C58",
   "status": "partial",
   "theorems": [
    "Dax.C58_exactly_once_partial",
    "Dax.C58_drained",
    "Dax.C58_room",
    "Dax.C58_effect",
    "Dax.C58_overflow",
    "Dax.C58_full_reachable"
   ],
   "note": "Handled and waiting deaths together are a permutation of the reported ones for every interleaving of signals with the slots of a scan. False in general: an eleventh death between two scans runs off the queue (C58_overflow, C58_full_reachable)."
  },
  {
   "property": "C59",
   "status": "proved",
   "theorems": [
    "Dax.C59_lookup",
    "Dax.C59_accepts"
   ],
   "note": "Pointer-level model of the circular list of modules (module_add, module_del, _get_module_fd, module_find_fd, and the parts of module_register/module_unregister that use the list). Every sequence of registrations, removals and lookups answers exactly as a table of connections, with no dangling pointer and no endless loop; every operation is accepted as long as the allocator proposes a free address."
  },
  {
   "property": "C60",
   "status": "partial",
   "theorems": [
    "Dax.C60_partial",
    "Dax.C60_bool",
    "Dax.C60_twice",
    "Dax.C60_redeclared",
    "Dax.C60_marked_late",
    "Dax.C60_grown",
    "Dax.C60_deleted",
    "Dax.C60_readded",
    "Dax.C60_compound",
    "Dax.C60_queue",
    "Dax.C60_first_type"
   ],
   "note": "C60_partial: tags of any base type except BOOL, created as retained under a name not retained before in this life of the server: after any history of requests, disconnections and restarts of modules, as long as the tag exists with the count it was created with, a restart brings it back with name, type, count, and it answers every read as before. Missing because the code violates it (theorems on concrete histories): BOOL values are not stored; a restored tag is not retained any more, so the second restart loses it, and declaring it again does not store its value; values written before the tag was declared retained; growth; deleted tags come back, and shadow a new tag of the same name; a retained queue or a tag of the first compound type crashes. Compound types in general are not covered by the theorem (C60_compound shows one case; the type may get another number). Assumes fewer than 1024 tags in both lives (beyond that the retention row of a tag is uninitialised memory). The file is modelled as the two SQLite tables."
  },
  {
   "property": "C61",
   "status": "partial",
   "theorems": [
    "Dax.C61_signals_partial",
    "Dax.C61_kills_group"
   ],
   "note": "Proved when every process is to be restarted and its first fork succeeded. False otherwise: kill(0, SIGQUIT) reaches the whole process group (C61_kills_group)."
  },
  {
   "property": "C62",
   "status": "partial",
   "theorems": [
    "Dax.C62_round_trip_partial",
    "Dax.C62_bool"
   ],
   "note": "All integer types, CHAR and BOOL. Missing: the NUL character (printed as empty text, reading it back looks past the end), and TIME, REAL, LREAL, whose text conversion is left to the C library and not modelled."
  },
  {
   "property": "C63",
   "status": "partial",
   "theorems": [
    "Dax.C63_registers_partial",
    "Dax.C63_coils_partial",
    "Dax.C63_lost",
    "Dax.C63_no_coils",
    "Dax.C63_exception_written",
    "Dax.C63_uninitialised",
    "Dax.C63_any_value"
   ],
   "note": "Proved for registers and coils of tags that anybody may write, on a server without mappings, if the exchange is defined (C54) and the uninitialised variable of the slave is 0. Fails: a refused write is acknowledged (47 coils, C63_lost); a count of 0 writes an uninitialised byte (C63_no_coils); an exception of the write callback comes after the write (C63_exception_written); an uninitialised variable refuses requests (C63_uninitialised); any value but 0 switches a coil on (C63_any_value)."
  },
  {
   "property": "C64",
   "status": "partial",
   "theorems": [
    "Dax.C64_answer",
    "Dax.C64_foreign",
    "Dax.C64_registers_partial",
    "Dax.C64_bits_partial",
    "Dax.C64_overrun",
    "Dax.C64_long",
    "Dax.C64_short",
    "Dax.C64_truncated",
    "Dax.C64_stale",
    "Dax.C64_exception_zero",
    "Dax.C64_larger_tag"
   ],
   "note": "Proved for well formed answers: C64_answer (memory of the command, no access outside), C64_foreign, and for whole exchanges over serial line and TCP with answers of at most 256 bytes and nothing pending, for tags not larger than the command. Fails: byte counts larger than asked for (C64_overrun), more than 1024 bytes on the serial line (C64_long), less than 6 bytes over TCP (C64_short), TCP answers of more than 256 bytes (C64_truncated), late answers over TCP (C64_stale), exceptions with code 0 (C64_exception_zero), tags larger than the command (C64_larger_tag)."
  },
  {
   "property": "C65",
   "status": "partial",
   "theorems": [
    "Dax.C65_accounting",
    "Dax.C65_retries_partial",
    "Dax.C65_changes_lost"
   ],
   "note": "The accounting holds for every exchange (C65_accounting). Repetition of the request until the retries are used up is proved for commands that read. It fails for commands that write on change: they are not repeated and the value is lost (C65_changes_lost)."
  },
  {
   "property": "C66",
   "status": "partial",
   "theorems": [
    "Dax.C66_read_registers_partial",
    "Dax.C66_read_bits_partial",
    "Dax.C66_write_registers_partial",
    "Dax.C66_write_coil_partial",
    "Dax.C66_tcp_registers_partial",
    "Dax.C66_tcp_bits_partial",
    "Dax.C66_tcp_write_registers_partial",
    "Dax.C66_tcp_write_coils_partial",
    "Dax.C66_tcp_write_register_partial",
    "Dax.C66_tcp_pieces",
    "Dax.C66_tcp_large",
    "Dax.C66_tcp_stuck",
    "Dax.C66_tcp_pipelined"
   ],
   "note": "Proved for functions 1, 2, 3, 4, 5 and 16 over the RTU protocol and for 1, 2, 3, 4, 6, 15 and 16 over TCP with the message in any pieces (C66_tcp_pieces), for tags of type BOOL and UINT without mappings, overrides or special attributes, under the conditions of C55, C63 and C64. The property fails over TCP: the buffer of the server has no room for an answer with more than 123 registers though 125 are allowed (C66_tcp_large), after such a request the connection never answers anything again until nothing arrives on any connection for a second (C66_tcp_stuck, for all later messages), and of two requests in one piece only the first is answered (C66_tcp_pipelined). The remaining writes are those that C56 shows to be wrong on the wire (6 and 15 over RTU, 5 over TCP). Missing: that the whole exchange ends (that is C54 for the slave; for the master the result of the exchange is a hypothesis)."
  },
  {
   "property": "C67",
   "status": "partial",
   "theorems": [
    "Dax.C67_member_partial",
    "Dax.C67_inverse_partial",
    "Dax.C67_tag",
    "Dax.C67_bit_partial",
    "Dax.C67_first_member",
    "Dax.C67_bit_zero",
    "Dax.C67_no_carry",
    "Dax.C67_index_lost"
   ],
   "note": "Proved without exception for elements of tags (C67_tag). For bits of integer tags missing only the case in which the number of bits is by chance the number of elements of the tag: the index is left out, and the name is refused (C67_index_lost). For members: the name made for a handle is exactly the path, and leads back to the same items, at any depth. Missing and false in the code: the first thing in a nested type gets the name of the nested type (C67_first_member), bit 0 of an integer member the name of the integer (C67_bit_zero), and BOOL members whose odd bits add up to more than a byte are counted wrong (C67_no_carry: the name for an integer member is the name of one of its bits). Also missing: paths outside C21, texts of 1024 characters or more (they are written outside the array), the search for the tag by its index (C48, here a parameter)."
  },
  {
   "property": "C68",
   "status": "partial",
   "theorems": [
    "Dax.C68_read_partial",
    "Dax.C68_write_partial",
    "Dax.C68_round_partial",
    "Dax.C68_text_partial",
    "Dax.C68_real_lost",
    "Dax.C68_real_infinite",
    "Dax.C68_ulint_negative",
    "Dax.C68_ulint_rounded",
    "Dax.C68_lint_rounded",
    "Dax.C68_time_half",
    "Dax.C68_time_array",
    "Dax.C68_int_range",
    "Dax.C68_short_text",
    "Dax.C68_text_bool",
    "Dax.C68_char_text",
    "Dax.C68_nil_zero",
    "Dax.C68_array_left_out"
   ],
   "note": "Proved for all types and nestings: reading (integers, BOOL, LREAL, TIME exact; 64-bit integers without sign below 2^53; REALs only their integer part; CHAR arrays as text), writing of values of the right shape (integers in range and below 2^53; elements and members left out), and both together. The full statement is false: REALs lose their fraction when read and infinite ones are undefined behaviour (C68_real_lost, C68_real_infinite), ULINTs come out negative or rounded, LINTs are rounded when written, TIME is written in four bytes of eight, numbers out of range are undefined behaviour, a string that is shorter than a CHAR array publishes uninitialised bytes, a string for a BOOL array overruns the mask, nil for a whole tag writes 0, and an array of compound type that is left out unbalances the stack, after which the next member is looked up in a string. The rounding of doubles to floats and the reading of numbers in strings are parameters."
  },
  {
   "property": "C69",
   "status": "partial",
   "theorems": [
    "Dax.C69_write_partial",
    "Dax.C69_bools_partial",
    "Dax.C69_accepted_partial",
    "Dax.C69_read_partial",
    "Dax.C69_read_bools",
    "Dax.C69_round_partial",
    "Dax.C69_bools_left_out"
   ],
   "note": "Proved from the Lua value to the memory of the server and back, for all types and nestings with elements of at most 2040 bytes and tags without mappings; the restrictions of C68 on values apply (REALs excluded from the round trip). Fails: BOOLs that are left out of an array are overwritten with what malloc left unless the array begins at a byte and has a multiple of eight elements, because dax_tag_mask ignores the mask then (C69_bools_left_out)."
  },
  {
   "property": "C70",
   "status": "partial",
   "theorems": [
    "Dax.C70_flag",
    "Dax.C70_status",
    "Dax.C70_run",
    "Dax.C70_kill",
    "Dax.C70_callback",
    "Dax.C70_defaults",
    "Dax.C70_first",
    "Dax.C70_command"
   ],
   "note": "Proved from the call of the library to the memory of the server, for states in which the status tag and the tag `_my_tagname` exist, the status tag is not overridden and no tag is the source of a mapping; each call is shown to leave the module in such a state, so calls can follow each other. Setting a callback is shown to give the right subscription if the server grants it. A text of 64 or more characters is cut off and then has no terminating zero, which follows from the specification of the text. Not covered: the thread in which the callback runs (C45 to C47 treat the dispatch of events), loss of the first edge (`C28_set_no_edge`)."
  },
  {
   "property": "C71",
   "status": "partial",
   "theorems": [
    "Dax.C71_begin_partial",
    "Dax.C71_end_partial",
    "Dax.C71_cycle_partial",
    "Dax.C71_rest_lost"
   ],
   "note": "Fails: the first global whose value does not suit its tag ends the writing, so that those configured before it are not written at all, and `run_script` does not look at it (`C71_rest_lost`). Missing: tags that do not exist, tags with mappings, floats above 2^63, BOOLs that are left out (C69), `_trigger_data`."
  },
  {
   "property": "C72",
   "status": "partial",
   "theorems": [
    "Dax.C72_order_partial",
    "Dax.C72_served_partial",
    "Dax.C72_drains_partial",
    "Dax.C72_inside",
    "Dax.C72_overwritten",
    "Dax.C72_spurious",
    "Dax.C72_lost_signal",
    "Dax.C72_no_room"
   ],
   "note": "Found: the flag for a full queue compares the last index before it wraps, so a queue that fills up while the first index is 0 is not seen as full, and the next event overwrites the oldest script (C72_overwritten); the queue does not count as empty at the start, so a spurious wakeup runs what malloc left (C72_spurious); an event before the workers wait is not served until the next one (C72_lost_signal); a size of 0 writes outside (C72_no_room).  Proved for all sizes, workers, histories and interleavings in which these do not occur; the indices stay inside the array without any condition."
  },
  {
   "property": "C73",
   "status": "partial",
   "theorems": [
    "Dax.C73_table_partial",
    "Dax.C73_duplicate",
    "Dax.C73_overflow",
    "Dax.C73_negative",
    "Dax.C73_wide"
   ],
   "note": "Found: scripts_size is not updated when the array grows, so the seventeenth script is written behind the array, for every configuration with that many (C73_overflow); get_script_name reads before the array for negative numbers (C73_negative); numbers are cut to 32 bits (C73_wide).  Proved for all configurations of up to sixteen scripts."
  },
  {
   "property": "C74",
   "status": "partial",
   "theorems": [
    "Dax.C74_turn",
    "Dax.C74_failed_for_ever",
    "Dax.C74_counts",
    "Dax.C74_switch_partial",
    "Dax.C74_flicker",
    "Dax.C74_stuck"
   ],
   "note": "Found: the module reacts to messages about its own writes; if one is on its way when the script disables itself, the script is switched on and off for ever (C74_flicker); disabling by a command is not shown in the tag, so that writing the switch cannot enable the script again (C74_stuck).  Proved for all histories: which turns execute, failure is final, the counter; for histories without commands in which messages are handled at once: the switch as users see it.  A turn and a message do not interleave in the model."
  },
  {
   "property": "C75",
   "status": "partial",
   "theorems": [
    "Dax.C75_interval_partial",
    "Dax.C75_period",
    "Dax.C75_longer",
    "Dax.C75_missed",
    "Dax.C75_false_overrun",
    "Dax.C75_short"
   ],
   "note": "Found: the difference of the nanoseconds is added instead of subtracted.  The pause grows by the time the scripts took (C75_longer), overruns within a second are never counted (C75_missed), others are counted wrongly (C75_false_overrun); intervals above 4294967 ms wrap (C75_short).  C75_period gives the period for all times; it is right if the parts of a second are equal (C75_interval_partial)."
  },
  {
   "property": "C76",
   "status": "partial",
   "theorems": [
    "Dax.C76_test",
    "Dax.C76_true",
    "Dax.C76_near_partial",
    "Dax.C76_step_partial",
    "Dax.C76_writes",
    "Dax.C76_unsigned",
    "Dax.C76_uint",
    "Dax.C76_time",
    "Dax.C76_bool"
   ],
   "note": "Proved for BYTE, SINT, CHAR, INT, DINT and LINT. Fails: the difference of UDINT, DWORD, ULINT and LWORD wraps around, so that an increase by 1 counts as a very large change and one from 0 to the largest number as 1 (`C76_unsigned`); UINT and WORD are read as four bytes where there are two (`C76_uint`); TIME is compared by its lower half (`C76_time`); no change of a BOOL is ever recorded (`C76_bool`). Missing: REAL and LREAL, differences of DINT or LINT that overflow (undefined in C)."
  },
  {
   "property": "C77",
   "status": "partial",
   "theorems": [
    "Dax.C77_gap_partial",
    "Dax.C77_order_partial",
    "Dax.C77_first",
    "Dax.C77_pending"
   ],
   "note": "Fails: the time of the last event is 0 at first, so that the first event always comes after a gap, and the gap is recorded before the start of the history if that is less than the timeout ago (`C77_first`); a value that is kept until the next change is lost if a gap follows (`C77_pending`). Missing: order if writes are recorded (two times are asked for in one event)."
  },
  {
   "property": "C78",
   "status": "partial",
   "theorems": [
    "Dax.C78_search",
    "Dax.C78_found",
    "Dax.C78_begin",
    "Dax.C78_end_partial",
    "Dax.C78_unfound"
   ],
   "note": "Fails: if a tag was never found or is of a compound type, at the end a pointer that was never set is given to the plugin (`C78_unfound`). Not modelled: a search that ends with another error than that the tag was not found is not repeated; the plugins (their `flush_data` expects an argument that it is not given)."
  },
  {
   "property": "C79",
   "status": "partial",
   "theorems": [
    "Dax.C79_sound",
    "Dax.C79_match_partial",
    "Dax.C79_first_partial",
    "Dax.C79_plus_end",
    "Dax.C79_hash",
    "Dax.C79_plus_hash",
    "Dax.C79_parent",
    "Dax.C79_few"
   ],
   "note": "Whatever is taken as a match is one. Fails: if a filter ends in `+`, for every topic that matches it is read behind the ends of both texts (`C79_plus_end`), also if the topic ends at a `+` of the filter (`C79_few`); `#` alone matches nothing (`C79_hash`), neither does `+/#` (`C79_plus_hash`); `a/#` does not match `a` (`C79_parent`)."
  },
  {
   "property": "C80",
   "status": "partial",
   "theorems": [
    "Dax.C80_room_partial",
    "Dax.C80_overflow"
   ],
   "note": "Fails: the size of the array is not adjusted when it is enlarged, so that the 33rd entry is written behind it (`C80_overflow`)."
  },
  {
   "property": "C81",
   "status": "partial",
   "theorems": [
    "Dax.C81_connect",
    "Dax.C81_subscribe",
    "Dax.C81_publisher_lost",
    "Dax.C81_publisher_first",
    "Dax.C81_resubscribe",
    "Dax.C81_resubscribe_first",
    "Dax.C81_held"
   ],
   "note": "Connecting and subscribing are proved. Fails: a publication whose tag does not exist when the broker is first reached is never tried again (`C81_publisher_lost`, `C81_publisher_first`); after the connection was lost no subscription is made again, although the session is a clean one (`C81_resubscribe`, `C81_resubscribe_first`)."
  },
  {
   "property": "C82",
   "status": "partial",
   "theorems": [
    "Dax.C82_transfer_partial",
    "Dax.C82_size",
    "Dax.C82_short",
    "Dax.C82_filter",
    "Dax.C82_no_tags"
   ],
   "note": "Fails: after a payload that is too short, or a filter that fails, bytes of an earlier message or of uninitialised memory are written (`C82_short`, `C82_filter`); a subscription without tags uses handles that do not exist (`C82_no_tags`). Filters are not modelled: only that they may fail or fill the buffer."
  },
  {
   "property": "C83",
   "status": "partial",
   "theorems": [
    "Dax.C83_read_partial",
    "Dax.C83_write",
    "Dax.C83_round_partial",
    "Dax.C83_bool_read",
    "Dax.C83_bool_write",
    "Dax.C83_map_read",
    "Dax.C83_map_write",
    "Dax.C83_map_round",
    "Dax.C83_raw_read",
    "Dax.C83_raw_write",
    "Dax.C83_lreal",
    "Dax.C83_map_twice",
    "Dax.C83_overrun",
    "Dax.C83_unknown"
   ],
   "note": "Proved for all types of fixed size but LREAL, for BOOL bit by bit, and for compound types with and without a map. Fails: LREAL is read as a float of four bytes but written as one of eight (`C83_lreal`); a map that names a byte twice is accepted and lets uninitialised bytes go to the controller (`C83_map_twice`); element sizes of compound types are not compared with the size of the tag, so that the buffer is overrun (`C83_overrun`); if the element size is not known an array of size -1 is made (`C83_unknown`). Byte order: the controller's copy is taken to be in the order of the machine, as libplctag delivers it."
  },
  {
   "property": "C84",
   "status": "partial",
   "theorems": [
    "Dax.C84_order_partial",
    "Dax.C84_stuck",
    "Dax.C84_overwritten"
   ],
   "note": "Order is proved as for C72, with the same condition on when the queue fills up. Fails: a refused tag leaves the lock taken; no tag passes any more and both threads wait for ever (`C84_stuck`, for all continuations); a queue that fills up for the first time is not seen to be full and its tags are lost (`C84_overwritten`)."
  },
  {
   "property": "C85",
   "status": "partial",
   "theorems": [
    "Dax.C85_parse_partial",
    "Dax.C85_name",
    "Dax.C85_logic"
   ],
   "note": "Fails: LOGIC and LOGICERR are topics with names that are shown, but the names are not recognised (`C85_logic`)."
  },
  {
   "property": "C86",
   "status": "partial",
   "theorems": [
    "Dax.C86_log_partial",
    "Dax.C86_configured_partial",
    "Dax.C86_room",
    "Dax.C86_file",
    "Dax.C86_no_file"
   ],
   "note": "Proved from the configuration to the message for complete descriptions. Fails: a service with a file name other than stdout or stderr is accepted and its first message is written through a pointer that was never set (`C86_file`); NULL is compared if type, file or priority is missing (`C86_no_file`)."
  },
  {
   "property": "C87",
   "status": "partial",
   "theorems": [
    "Dax.C87_script_partial",
    "Dax.C87_defined",
    "Dax.C87_parity",
    "Dax.C87_timeout",
    "Dax.C87_speed",
    "Dax.C87_type",
    "Dax.C87_refused",
    "Dax.C87_nounit",
    "Dax.C87_notag",
    "Dax.C87_never",
    "Dax.C87_range",
    "Dax.C87_number"
   ],
   "note": "Proved for every script for all that makes sense; with numbers within the C types a script is free of undefined behaviour (`C87_defined`). Fails: the parity is never stored (`C87_parity`); with 0 retries the timeout is set to 1 ms (`C87_timeout`); an unknown speed sets speed 0 (`C87_speed`); a port without a type compares NULL (`C87_type`); a command that is refused stays in the list, enabled (`C87_refused`, `C87_nounit`); a command without a tag has a tag name that was never set (`C87_notag`); a trigger without a tag makes a command that is never sent (`C87_never`); a number outside of its type is undefined (`C87_range`)."
  },
  {
   "property": "C88",
   "status": "partial",
   "theorems": [
    "Dax.C88_own_partial",
    "Dax.C88_wrong",
    "Dax.C88_full",
    "Dax.C88_leak",
    "Dax.C88_dead"
   ],
   "note": "Proved for at most 2048 addresses, and, unless connections persist, for commands that are sent in a scan. Fails: without persistent connections a command sent by an event between two scans leaves a closed descriptor in the pool, and a later command is written to another device (`C88_wrong`); with 2048 connections the next is written outside of the array (`C88_full`); a failed attempt leaves its socket open (`C88_leak`); a connection that the other side closed is used for ever (`C88_dead`)."
  },
  {
   "property": "C89",
   "status": "partial",
   "theorems": [
    "Dax.C89_once",
    "Dax.C89_made_partial",
    "Dax.C89_first",
    "Dax.C89_last",
    "Dax.C89_forgotten",
    "Dax.C89_minute",
    "Dax.C89_overwritten",
    "Dax.C89_kinds",
    "Dax.C89_minusone",
    "Dax.C89_enable",
    "Dax.C89_bits"
   ],
   "note": "Proved: no event twice; every round that tries gives all events whose tags are there (`C89_made_partial`, `C89_first`); the last command of the last port gets its event whenever its tag comes in the first 60 rounds (`C89_last`); the enable tag (`C89_enable`, `C89_bits`). Fails: errors of all ports but the last are dropped (`C89_forgotten`), of all commands but the last (`C89_overwritten`), of all kinds but the last (`C89_kinds`), an error \u22121 counts as success (`C89_minusone`), and nothing is tried after 60 rounds (`C89_minute`)."
  },
  {
   "property": "C90",
   "status": "partial",
   "theorems": [
    "Dax.C90_layout",
    "Dax.C90_reply",
    "Dax.C90_request_partial",
    "Dax.C90_taken",
    "Dax.C90_types",
    "Dax.C90_overflow",
    "Dax.C90_stale",
    "Dax.C90_outside",
    "Dax.C90_outside_run",
    "Dax.C90_clobber",
    "Dax.C90_function"
   ],
   "note": "Proved for reads with a connection: members where the callback looks for them (`C90_layout`), the request (`C90_request_partial`), what is taken from the answer (`C90_taken`), what is written back (`C90_reply`). Fails: reading and writing the tag converts a whole element in a buffer of 15 bytes, an access outside of it on every command (`C90_outside`, `C90_outside_run`); all ports but the first use a type that was never set (`C90_types`); answers with more than 120 registers are written behind the area (`C90_overflow`); without a connection the response is that of the command before (`C90_stale`); the elements of data that were not read are overwritten (`C90_clobber`); a function that is not known is undefined on a serial line (`C90_function`). Missing: the frame of writes."
  },
  {
   "property": "C91",
   "status": "partial",
   "theorems": [
    "Dax.C91_client",
    "Dax.C91_master_partial",
    "Dax.C91_failures",
    "Dax.C91_inhibited",
    "Dax.C91_again",
    "Dax.C91_lost",
    "Dax.C91_start",
    "Dax.C91_blocked"
   ],
   "note": "Proved for clients, and for serial masters that persist and have no limit of failures (`C91_client`, `C91_master_partial`); the count of failures (`C91_failures`, `C91_inhibited`). Fails: a serial port that does not persist, which is the default, loses its device after the first round that is quick (`C91_lost`); after a restart the first failure gives the port up again (`C91_again`); if the device cannot be opened at first the thread of the port waits for ever (`C91_blocked`)."
  },
  {
   "property": "C92",
   "status": "partial",
   "theorems": [
    "Dax.C92_words",
    "Dax.C92_spaces",
    "Dax.C92_overflow",
    "Dax.C92_values_partial",
    "Dax.C92_write_partial",
    "Dax.C92_bools_partial",
    "Dax.C92_text",
    "Dax.C92_write_text",
    "Dax.C92_refused",
    "Dax.C92_read_partial",
    "Dax.C92_bools_left_out",
    "Dax.C92_negative"
   ],
   "note": "Proved: division into words, for single spaces (`C92_words`); values and omissions for integer types (`C92_values_partial`, `C92_write_partial`), BOOLs without omissions (`C92_bools_partial`), texts (`C92_text`, `C92_write_text`), refusals (`C92_refused`), read (`C92_read_partial`). Fails: every command stores the end of its list of words outside of the block (`C92_overflow`); a second space counts as a word and is taken for 0 (`C92_spaces`); BOOLs given as ~ are cleared when the BOOLs are not whole bytes (`C92_bools_left_out`); a negative number for an unsigned type of 64 bits is left out if another item is (`C92_negative`); the function returns 0 for every write, also a refused one (`C92_write_partial`). Missing: REAL and LREAL values, custom types."
  },
  {
   "property": "C93",
   "status": "partial",
   "theorems": [
    "Dax.C93_override",
    "Dax.C93_unknown",
    "Dax.C93_inc",
    "Dax.C93_operands_partial",
    "Dax.C93_xnor",
    "Dax.C93_operand_lost",
    "Dax.C93_delete"
   ],
   "note": "Proved: operation and operands when all are given (`C93_operands_partial`). Fails: items given as ~ are overridden with 0 (`C93_override`); for an unknown name the override of the tag with index 0 is changed (`C93_unknown`); increment and decrement without a value do nothing and report success (`C93_inc`); xnor is sent as xor (`C93_xnor`); an operand after one left out is lost (`C93_operand_lost`); a name that is too long deletes the tag whose index is in memory (`C93_delete`)."
  },
  {
   "property": "C94",
   "status": "partial",
   "theorems": [
    "Dax.C94_once_partial",
    "Dax.C94_twice",
    "Dax.C94_blank",
    "Dax.C94_empty"
   ],
   "note": "Proved for files whose last line has no newline (`C94_once_partial`). Fails: with a newline at the end the last line is run twice (`C94_twice`), for example an increment; an empty last line reads before the array (`C94_blank`); an empty file runs what is in memory (`C94_empty`)."
  },
  {
   "property": "C95",
   "status": "partial",
   "theorems": [
    "Dax.C95_all",
    "Dax.C95_from",
    "Dax.C95_next_partial",
    "Dax.C95_last"
   ],
   "note": "Proved: the list of all tags, the list from a number on and the parts (`C95_all`, `C95_from`, `C95_next_partial`). Fails: if the index of the last tag is a multiple of the size of the parts, the last tag is in none of them (`C95_last`)."
  },
  {
   "property": "C96",
   "status": "partial",
   "theorems": [
    "Dax.C96_readable",
    "Dax.C96_file_partial",
    "Dax.C96_rotation",
    "Dax.C96_no_file",
    "Dax.C96_char"
   ],
   "note": "Proved for BOOL and the integer types (`C96_file_partial`), with the reading of lines (`C96_readable`) and rotation (`C96_rotation`). Fails: if a file cannot be opened, the next record is printed to no file (`C96_no_file`); a CHAR that is a newline breaks its line (`C96_char`). Missing: TIME, REAL, LREAL."
  },
  {
   "property": "C97",
   "status": "partial",
   "theorems": [
    "Dax.C97_tag",
    "Dax.C97_long",
    "Dax.C97_data_partial",
    "Dax.C97_run_partial",
    "Dax.C97_purge",
    "Dax.C97_purge_all",
    "Dax.C97_char"
   ],
   "note": "Proved: rows and numbers of tags with names up to 205 characters (`C97_tag`), records of BOOL and the integer types (`C97_data_partial`, `C97_run_partial`), the purge with the time that is meant (`C97_purge`). Fails: the logger calls the purge without the time, and the whole history may be deleted (`C97_purge_all`); longer names are not stored and their records go to a row number from memory (`C97_long`); letters of type CHAR are not recorded (`C97_char`); the type stored is 2 for every tag (`C97_tag`). Missing: TIME, REAL, LREAL; SQLite is modelled for the statements of the plugin only."
  },
  {
   "property": "C98",
   "status": "partial",
   "theorems": [
    "Dax.C98_number",
    "Dax.C98_delete",
    "Dax.C98_value_partial",
    "Dax.C98_sent_partial",
    "Dax.C98_full",
    "Dax.C98_outside",
    "Dax.C98_never",
    "Dax.C98_time",
    "Dax.C98_wraps"
   ],
   "note": "Proved: arrival (`C98_number`, when the server gives different identifiers), deletion of a number that was given (`C98_delete`), the request with values of the integer types but TIME (`C98_sent_partial`, `C98_value_partial`). Fails: a place is never used again, so after 64 additions every other is refused (`C98_full`); number 65 reads outside the table (`C98_outside`); a number never given asks the server to delete event 0 of tag 0 (`C98_never`); half of a TIME comes from memory (`C98_time`); too large numbers are cut without a message (`C98_wraps`). Missing: REAL and LREAL, whose text is an input."
  },
  {
   "property": "C99",
   "status": "partial",
   "theorems": [
    "Dax.C99_text",
    "Dax.C99_port_partial",
    "Dax.C99_address_partial",
    "Dax.C99_buffers",
    "Dax.C99_defined",
    "Dax.C99_excluded",
    "Dax.C99_zero",
    "Dax.C99_address",
    "Dax.C99_wraps",
    "Dax.C99_path",
    "Dax.C99_topics"
   ],
   "note": "Proved for the socket and the list of modules (`C99_text`, `C99_excluded`), ports from 1 to 65535 (`C99_port_partial`), addresses but 0.0.0.0 (`C99_address_partial`), buffers (`C99_buffers`). Fails: 0.0.0.0 on the command line does not count when the file has an address (`C99_zero`); with a name such as localhost the server listens on all addresses (`C99_address`); 73313 is taken for port 7777 (`C99_wraps`); a path of 108 bytes or more has no end (`C99_path`); -T is not accepted though --logtopics is (`C99_topics`). Missing: abbreviations of long options, several flags in one word."
  },
  {
   "property": "C100",
   "status": "partial",
   "theorems": [
    "Dax.C100_kept_partial",
    "Dax.C100_refused_partial",
    "Dax.C100_safe",
    "Dax.C100_truncated",
    "Dax.C100_twice",
    "Dax.C100_name"
   ],
   "note": "Proved: what is accepted is kept (`C100_kept_partial`) and wrong places are refused (`C100_refused_partial`) for numbers of 16 bits in the map and element sizes up to 65536; use of an accepted map for reading stays in memory for all arguments (`C100_safe`). Fails: 65536 in a map is taken for 0 (`C100_truncated`); a map that names a byte twice and a negative count are accepted (`C100_twice`); a name that is neither text nor number is passed to strdup as NULL (`C100_name`)."
  },
  {
   "property": "C101",
   "status": "partial",
   "theorems": [
    "Dax.C101_user",
    "Dax.C101_group_partial",
    "Dax.C101_trusted",
    "Dax.C101_group_lost",
    "Dax.C101_unknown",
    "Dax.C101_not_root"
   ],
   "note": "Proved: the user, with a master that is root, for numbers below 2^31 (`C101_user`), the group of children that stay root (`C101_group_partial`), the check of the file (`C101_trusted`). Fails: `setuid` comes before `setgid`, so that a child with any other user keeps the group of root (`C101_group_lost`); a child whose user is not known is started with the identity of the master, even root, contrary to the comment in the source (`C101_unknown`); so is each child of a master that is not root (`C101_not_root`). Supplementary groups are not modelled; the code does not change them. The file could be replaced between the check and its use: not modelled."
  },
  {
   "property": "C102",
   "status": "partial",
   "theorems": [
    "Dax.C102_args_partial",
    "Dax.C102_none",
    "Dax.C102_print_partial",
    "Dax.C102_print_outside",
    "Dax.C102_print_lost",
    "Dax.C102_print_env"
   ],
   "note": "Proved for entries with arguments (`C102_args_partial`), and for the list of one process without environment (`C102_print_partial`). Fails: without arguments the array has no end and `execvp` reads outside of it (`C102_none`); the list reads outside of the arguments of a process that has fewer than the one before (`C102_print_outside`), shows none if it has as many (`C102_print_lost`), and reads freed memory if a process has an environment (`C102_print_env`)."
  },
  {
   "property": "C103",
   "status": "partial",
   "theorems": [
    "Dax.C103_kept",
    "Dax.C103_all",
    "Dax.C103_refused",
    "Dax.C103_thread",
    "Dax.C103_file",
    "Dax.C103_no_tag",
    "Dax.C103_no_type",
    "Dax.C103_stdin"
   ],
   "note": "Proved for what is accepted (`C103_kept`, `C103_all`), taken names (`C103_refused`), threads (`C103_thread`) and files (`C103_file`). Fails: a trigger without tag or without type is not refused, NULL is passed to `strdup` or `strcasecmp` (`C103_no_tag`, `C103_no_type`); a script without file is read from the standard input of the module, which waits for it (`C103_stdin`)."
  },
  {
   "property": "C104",
   "status": "partial",
   "theorems": [
    "Dax.C104_once",
    "Dax.C104_set_partial",
    "Dax.C104_ends",
    "Dax.C104_lost",
    "Dax.C104_time",
    "Dax.C104_range"
   ],
   "note": "Proved: at most one event in all executions (`C104_once`), exactly one if the server never refuses an event for a tag it has (`C104_set_partial`), end of the loop (`C104_ends`). Fails: a trigger whose event is refused once is never tried again although its tag is known, and the module reports success (`C104_lost`); for tags of type TIME half of the value is left over from before (`C104_time`); values outside of the type of the tag are converted, which is undefined (`C104_range`). Values with a fraction and the bytes of REAL and LREAL are not modelled."
  },
  {
   "property": "C105",
   "status": "partial",
   "theorems": [
    "Dax.C105_size",
    "Dax.C105_read_partial",
    "Dax.C105_refused",
    "Dax.C105_write",
    "Dax.C105_small",
    "Dax.C105_behind",
    "Dax.C105_failed",
    "Dax.C105_negative"
   ],
   "note": "Proved for groups of four bytes and more (`C105_read_partial`), too little memory (`C105_refused`), sizes and writing for all groups (`C105_size`, `C105_write`). Fails: the request is put together in the memory of the caller, so that a group of one to three bytes, such as one BYTE, is not read into memory of its size without a write behind the end (`C105_small`), the bytes behind it change (`C105_behind`), and a refused request changes the memory (`C105_failed`); a negative count gives a message of almost 2^64 bytes (`C105_negative`). Clients with another byte order are not modelled here."
  },
  {
   "property": "C106",
   "status": "partial",
   "theorems": [
    "Dax.C106_actual_partial",
    "Dax.C106_refused",
    "Dax.C106_begin",
    "Dax.C106_bits",
    "Dax.C106_bits_shown",
    "Dax.C106_bool",
    "Dax.C106_none",
    "Dax.C106_limit"
   ],
   "note": "Proved for handles at the begin of a tag, over all histories of data and override requests on a server without mappings (`C106_actual_partial`), and for refused requests (`C106_refused`). Fails: a handle that begins elsewhere gets the bytes from the begin of the tag (`C106_begin`); the bit of a handle is not looked at, so that bits come back shifted and the last ones are lost (`C106_bits`, `C106_bits_shown`); overrides of BOOL tags are neither accepted nor given back (`C106_bool`); a tag without override ends the server with a NULL mask (`C106_none`); at most 2044 bytes are given back (`C106_limit`)."
  },
  {
   "property": "C107",
   "status": "partial",
   "theorems": [
    "Dax.C107_order",
    "Dax.C107_goes_on_partial",
    "Dax.C107_stuck",
    "Dax.C107_stuck_shown",
    "Dax.C107_lost"
   ],
   "note": "Proved for all interleavings: what is put in, once and in order, and all of it when the main thread goes on (`C107_order`); as long as the queue is not full it can go on (`C107_goes_on_partial`). Fails: with a full queue the main thread sleeps with the lock and then waits for itself, after which no thread can do anything (`C107_stuck`, with a history that leads there in `C107_stuck_shown`); if no worker has taken a script yet a full queue is not noticed and the first script is overwritten (`C107_lost`)."
  },
  {
   "property": "C108",
   "status": "partial",
   "theorems": [
    "Dax.C108_sub",
    "Dax.C108_pub",
    "Dax.C108_all",
    "Dax.C108_accepted",
    "Dax.C108_refused",
    "Dax.C108_publish",
    "Dax.C108_crash",
    "Dax.C108_qos",
    "Dax.C108_sub_qos",
    "Dax.C108_login",
    "Dax.C108_address_partial",
    "Dax.C108_address_cut"
   ],
   "note": "Proved for all configurations: accepted calls add one entry each, as given and in order (`C108_sub`, `C108_pub`, `C108_all`), complete ones are accepted, missing topics and triggers refused, and publications ask for what their entry says (`C108_publish`). Fails: a topic, tag, trigger tag or trigger value that is neither text nor number is copied from NULL (`C108_crash`); a quality of service out of range is accepted or wraps (`C108_qos`), that of a subscription is never used (`C108_sub_qos`); user and password are never given to the broker (`C108_login`); an address above 63 characters is cut (`C108_address_cut`)."
  },
  {
   "property": "C109",
   "status": "partial",
   "theorems": [
    "Dax.C109_apart_partial",
    "Dax.C109_served_partial",
    "Dax.C109_down",
    "Dax.C109_down_shown",
    "Dax.C109_many",
    "Dax.C109_leak"
   ],
   "note": "Proved by refinement for all histories and all ways of answering: as long as no connection fails, what is sent is what a server sends that has separate, initially empty bytes for each connection (`C109_apart_partial`), and everything such a server serves is served (`C109_served_partial`, which needs that `maxfd` stays right). Fails: an error of `read` on one connection ends the service of all for good (`C109_down`, `C109_down_shown`), since `mb_run_port` then waits at the barrier each time round; a descriptor from 1024 on is written outside the set (`C109_many`); buffers of closed connections are never given back (`C109_leak`)."
  },
  {
   "property": "C110",
   "status": "partial",
   "theorems": [
    "Dax.C110_button",
    "Dax.C110_axis_partial",
    "Dax.C110_others",
    "Dax.C110_accepted",
    "Dax.C110_scale",
    "Dax.C110_offset"
   ],
   "note": "Proved for all configurations and events: buttons (`C110_button`), which tag an axis writes (`C110_axis_partial`), what writes nothing (`C110_others`), what is accepted (`C110_accepted`). Fails: the scale is added instead of multiplied (`C110_scale`; by `C110_axis_partial` the value is right only where sum and product agree); a large offset overflows or is changed (`C110_offset`). Floating point numbers are integers in the model."
  },
  {
   "property": "C111",
   "status": "partial",
   "theorems": [
    "Dax.C111_add_partial",
    "Dax.C111_atomic_partial",
    "Dax.C111_count",
    "Dax.C111_left_out",
    "Dax.C111_two",
    "Dax.C111_one",
    "Dax.C111_wraps",
    "Dax.C111_refused",
    "Dax.C111_error"
   ],
   "note": "Proved for all reachable servers and values of the right shape: what the value has goes where it belongs (`C111_add_partial`, `C111_atomic_partial`, on top of C68); if the conversion gives an error nothing is sent (`C111_refused`, `C111_error`). Fails: elements that are left out are overridden with what `malloc` left (`C111_left_out`); with two arguments `atomic_op` takes the value off the stack and converts the name of the tag instead (`C111_two`), with one nothing is left to convert (`C111_one`); an operation above 16 bits becomes another one (`C111_wraps`)."
  }
 ]
}