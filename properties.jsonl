{"id": "C01", "title": "Name lookup agrees with the set of live tags", "statement": "After any sequence of tag creations and deletions, asking the server for a tag by name returns the index of the one live tag with exactly that name, returns not-found when no live tag has it, and no two live tags share a name.", "quantifier": "every sequence of successful or failing tag add / tag delete requests, every queried name", "why_tests_cant": "The sorted index is searched by bisection and edited with block moves; a wrong boundary only shows for particular sizes and insertion orders, and the sequences are unbounded.", "anchors": ["src/server/tagbase.c: _get_by_name,_add_index,_del_index,tag_add,tag_del,tag_get_name"]}
{"id": "C02", "title": "Tag indexes are never reused", "statement": "An index handed out for a tag never later denotes a tag with another name; once a tag is deleted, every get/read/write/delete on that index keeps answering DELETED (or a range error) for the rest of the server's life.", "quantifier": "every request history after the index was handed out", "why_tests_cant": "It is a statement about all future histories.", "anchors": ["src/server/tagbase.c: tag_add,tag_del,tag_get_index,tag_read,tag_write"]}
{"id": "C03", "title": "Read returns the last write", "statement": "For an ordinary tag with no override in force, a read of a byte range after a successful write of the same range returns exactly the bytes written.", "quantifier": "every tag state, offset, size and payload", "why_tests_cant": "All payloads, offsets and sizes cannot be enumerated.", "anchors": ["src/server/tagbase.c: tag_read,tag_write"]}
{"id": "C04", "title": "Writes are isolated", "statement": "A successful write or masked write changes only the addressed bytes of the addressed tag: every byte outside the range, every other tag's data, and every name/type/count is left as it was.", "quantifier": "every server state and every write request", "why_tests_cant": "A frame property over the whole state for all inputs.", "anchors": ["src/server/tagbase.c: tag_write,tag_mask_write"]}
{"id": "C05", "title": "Out-of-range access is refused without effect", "statement": "A read, write or masked write whose range is not inside the tag is answered with an error and neither touches memory outside the tag nor changes any state; an index outside the database is refused likewise.", "quantifier": "every signed 32-bit index, offset and size, every tag state", "why_tests_cant": "Boundary behaviour over the whole 32-bit range including negative and overflowing values.", "anchors": ["src/server/tagbase.c: tag_read,tag_write,tag_mask_write,tag_get_size", "src/server/message.c: msg_tag_read,msg_tag_write,msg_tag_mask_write"]}
{"id": "C06", "title": "Masked write replaces exactly the masked bits", "statement": "After a successful masked write every bit whose mask bit is 1 equals the new data bit and every bit whose mask bit is 0 keeps its old value.", "quantifier": "every old content, new data and mask of any length", "why_tests_cant": "Universally quantified over bit patterns and lengths.", "anchors": ["src/server/tagbase.c: tag_mask_write"]}
{"id": "C07", "title": "New tag space reads as zero and growing keeps old data", "statement": "A newly created tag reads as all zero bytes; re-declaring a tag with a larger count keeps all existing bytes and the added bytes read as zero.", "quantifier": "every type, count and previous content", "why_tests_cant": "Depends on what the allocator returns, which a test does not control.", "anchors": ["src/server/tagbase.c: tag_add", "src/server/func.c: xmalloc,xrealloc"]}
{"id": "C08", "title": "Re-declaring an existing tag", "statement": "Adding a tag whose name exists with the same type and a count not larger than the present one returns the same index and changes neither data, type nor count; adding with a different type is refused and changes nothing; adding a name owned by another module is refused and changes nothing.", "quantifier": "every database state, name, type, count and caller", "why_tests_cant": "All database states.", "anchors": ["src/server/tagbase.c: tag_add,_set_attribute"]}
{"id": "C09", "title": "Refused tag creation has no effect", "statement": "When a tag-add request is refused (zero count, unknown type, illegal name, reserved name, type conflict, owned by another) every later request is answered as if it had never been made.", "quantifier": "every database state and refused request", "why_tests_cant": "Quantifies over all states and all subsequent observations.", "anchors": ["src/server/tagbase.c: tag_add", "src/server/message.c: msg_tag_add"]}
{"id": "C10", "title": "Status tags count the tags", "statement": "After any sequence of tag creations and deletions by clients, reading _tagcount gives the number of live tags and reading _lastindex gives the highest index ever assigned.", "quantifier": "every sequence of tag add / delete requests", "why_tests_cant": "An invariant over unbounded histories.", "anchors": ["src/server/tagbase.c: tag_add,tag_del,initialize_tagbase"]}
{"id": "C11", "title": "Tag name grammar", "statement": "A client can create a tag exactly when its name is 1 to 32 characters, begins with a letter, and contains only letters, digits and underscores; names beginning with an underscore can be neither created nor deleted by clients.", "quantifier": "every byte string", "why_tests_cant": "All strings.", "anchors": ["src/server/tagbase.c: _validate_name", "src/server/message.c: msg_tag_add,msg_tag_del"]}
{"id": "C12", "title": "Disconnect removes exactly the module's own tags", "statement": "When a module disconnects, every live tag it owns and its status tag disappear, and every other tag stays with its data unchanged.", "quantifier": "every set of modules, tags and owners", "why_tests_cant": "All states of the database and registry.", "anchors": ["src/server/module.c: module_unregister", "src/server/tagbase.c: is_tag_owned,tag_del"]}
{"id": "C13", "title": "Read-only tags can only be changed by their owner", "statement": "No client request from a module that does not own a read-only tag changes the value that a read of that tag returns, whichever kind of request is used (write, masked write, atomic operation, group write, override, mapping).", "quantifier": "every read-only tag, every module that is not its owner, every request", "why_tests_cant": "Ranges over every request type, payload and state.", "anchors": ["src/server/message.c: msg_tag_write,msg_tag_mask_write,msg_atomic_op,msg_group_write,msg_add_override,msg_set_override,msg_map_add"]}
{"id": "C14", "title": "Override read-back", "statement": "While an override is in force a read returns, bit by bit, the override value where the override mask is 1 and the written value elsewhere; writes made meanwhile are stored underneath and become visible when the override is switched off.", "quantifier": "every data, override data, mask, range and interleaved writes", "why_tests_cant": "Bitwise statement for all contents and histories.", "anchors": ["src/server/tagbase.c: tag_read,override_add,override_set,tag_write"]}
{"id": "C15", "title": "Override status counters", "statement": "_overrides_installed always equals the number of live tags that have an override installed and _overrides_set the number of live tags whose override is in force.", "quantifier": "every history of override add, delete, set, clear and tag deletion", "why_tests_cant": "An invariant over unbounded histories.", "anchors": ["src/server/tagbase.c: override_add,override_del,override_set,tag_del"]}
{"id": "C16", "title": "Installing an override affects only its range", "statement": "Installing an override on a sub-range of any tag and switching it on changes reads only in the masked bits of that range; an out-of-range install or removal is refused without effect; reading an override back returns the installed value and mask.", "quantifier": "every tag type, size, range, value and mask", "why_tests_cant": "Depends on allocator contents and all ranges.", "anchors": ["src/server/tagbase.c: override_add,override_del,override_get"]}
{"id": "C17", "title": "Type definitions are immutable and unique", "statement": "Creating a compound type whose name exists succeeds, returning the same type id, exactly when the definition text is the same, otherwise it is refused as duplicate; an existing type's definition, size and id never change later; member names are unique ignoring case.", "quantifier": "every sequence of type definitions", "why_tests_cant": "All definition strings and histories.", "anchors": ["src/server/tagbase.c: cdt_create,cdt_append,cdt_get_type,serialize_datatype"]}
{"id": "C18", "title": "Compound layout has no overlap", "statement": "In the layout implied by the server's size computation members are laid out in order, occupy disjoint bit ranges, non-BOOL members start on byte boundaries, and everything fits in the size the server reports for the type, which is the least number of bytes that does.", "quantifier": "every compound type, nested to any depth", "why_tests_cant": "Recursive structure of unbounded depth.", "anchors": ["src/server/tagbase.c: type_size"]}
{"id": "C19", "title": "Server and client agree on sizes", "statement": "For every valid type the element size computed by the client library equals the one the server uses for bounds checking.", "quantifier": "every table of compound types and every type in it", "why_tests_cant": "Two independent recursive computations over unbounded structures.", "anchors": ["src/server/tagbase.c: type_size,tag_get_size", "src/lib/libcdt.c: dax_get_typesize"]}
{"id": "C20", "title": "Type description text round trip", "statement": "The text the server sends for a type, parsed by the client, yields the same member names, types and counts in the same order, and creating a type from that text again is recognised as the same type.", "quantifier": "every compound type", "why_tests_cant": "All member lists and names.", "anchors": ["src/server/tagbase.c: serialize_datatype,cdt_create,cdt_append", "src/lib/libcdt.c: add_cdt_to_cache,_add_member_to_cache,dax_cdt_create"]}
{"id": "C21", "title": "Member path resolves to the member's place", "statement": "Resolving a path such as tag.member[i].sub gives exactly the byte and bit position of that member in the compound layout, for every nesting and array index.", "quantifier": "every compound type, every path and index", "why_tests_cant": "Unbounded nesting; misalignment shows only for particular mixes of BOOL and other members.", "anchors": ["src/lib/libcdt.c: _parse_next_member,_dax_tag_handle,_parse_bit_index"]}
{"id": "C22", "title": "A handle never reaches outside its tag", "statement": "When resolving a tag path with a count succeeds, the byte range of the handle lies inside the tag; a range that does not fit is refused.", "quantifier": "every tag type, index, bit index and count", "why_tests_cant": "All indices and counts including boundary values.", "anchors": ["src/lib/libcdt.c: _dax_tag_handle,_parse_bit_index,_get_index"]}
{"id": "C23", "title": "Member iteration matches the layout", "statement": "Iterating over the members of a compound type reports for every member the byte and bit where path resolution and the server layout place it.", "quantifier": "every compound type", "why_tests_cant": "Unbounded member lists.", "anchors": ["src/lib/libcdt.c: dax_cdt_iter"]}
{"id": "C24", "title": "BOOL ranges round trip at any bit offset", "statement": "Writing n BOOLs through a handle that starts at any bit and reading them back returns the same n bits, and no neighbouring bit changes; a BOOL write through a valid handle is not refused for size.", "quantifier": "every bit offset, count, data and neighbouring content", "why_tests_cant": "Shifting code with many residue classes; all data.", "anchors": ["src/lib/libdata.c: dax_tag_read,dax_tag_write,dax_tag_mask"]}
{"id": "C25", "title": "Large transfers are split without loss", "statement": "A client read or write of any size is carried out as a sequence of requests none larger than the protocol limit, whose ranges partition the requested range in order, and terminates.", "quantifier": "every element size and total size", "why_tests_cant": "All sizes, including non-multiples.", "anchors": ["src/lib/libdata.c: dax_tag_read,dax_tag_write,dax_tag_mask"]}
{"id": "C26", "title": "Write event fires exactly on overlapping writes", "statement": "A write notification is sent for a successful write exactly when the written byte range and the subscribed range share a byte.", "quantifier": "every range pair", "why_tests_cant": "All offsets and sizes.", "anchors": ["src/server/events.c: event_check,_event_hit"]}
{"id": "C27", "title": "Change event fires exactly on change", "statement": "A change notification is sent for a write exactly when the subscribed bits differ from their value at the previous notification (or subscription), for BOOL ranges at any bit offset as well as for whole bytes.", "quantifier": "every history of writes to the subscribed range", "why_tests_cant": "A property of sequences of writes.", "anchors": ["src/server/events.c: _event_change,event_add"]}
{"id": "C28", "title": "Set and reset events are edge triggered", "statement": "A SET (RESET) notification is sent by a write exactly when some subscribed bit goes from 0 to 1 (1 to 0) compared with the bits seen at the previous write.", "quantifier": "every history of writes", "why_tests_cant": "A property of sequences.", "anchors": ["src/server/events.c: _event_set,_event_reset"]}
{"id": "C29", "title": "Comparison events fire on entering the condition", "statement": "An EQUAL, GREATER or LESS notification is sent by a write exactly when some subscribed element satisfies the relation with the given value now and did not at the previous check, for every integer type over its full range.", "quantifier": "every value, threshold, element type and history", "why_tests_cant": "Full numeric ranges and histories.", "anchors": ["src/server/events.c: _generic_compare,_event_compare"]}
{"id": "C30", "title": "Deadband events fire exactly outside the band", "statement": "A DEADBAND notification is sent by a write exactly when some subscribed element differs by at least the given amount from its value at the last notification.", "quantifier": "every value, amount and history, every integer type", "why_tests_cant": "Overflow of the difference shows only at extreme values.", "anchors": ["src/server/events.c: _generic_deadband,_event_deadband"]}
{"id": "C31", "title": "Event subscriptions have unique ids and are deleted individually", "statement": "Ids of subscriptions on a tag are never reused; deleting a subscription answers success, removes that one and leaves all the others in force.", "quantifier": "every history of subscriptions and deletions", "why_tests_cant": "Linked-list edits depend on position; unbounded histories.", "anchors": ["src/server/events.c: event_add,event_del"]}
{"id": "C32", "title": "Only the subscriber manages a subscription", "statement": "A module cannot delete or change options of an event subscribed by another module.", "quantifier": "every pair of modules, every subscription list", "why_tests_cant": "All states.", "anchors": ["src/server/events.c: event_del,event_opt"]}
{"id": "C33", "title": "No notifications to departed modules", "statement": "After a module disconnects no subscription of it remains and no notification is addressed to it.", "quantifier": "every history of subscriptions, tag deletions and disconnects", "why_tests_cant": "Needs a bookkeeping invariant over all histories.", "anchors": ["src/server/events.c: events_cleanup", "src/server/module.c: module_unregister", "src/server/tagbase.c: tag_del"]}
{"id": "C34", "title": "Mapping copies source to destination", "statement": "After a client write that touches a mapped source range, the destination range holds the source bits, and destination bits outside it are unchanged.", "quantifier": "every pair of handles including BOOL ranges at any bit offset, every content", "why_tests_cant": "Bit shifting over all residues and contents.", "anchors": ["src/server/mapping.c: map_add,map_check"]}
{"id": "C35", "title": "Mapping chains and cycles terminate", "statement": "A client write always completes even if mappings form chains or cycles; each mapping of the written tag is applied at most once per write.", "quantifier": "every mapping graph", "why_tests_cant": "All graphs.", "anchors": ["src/server/mapping.c: map_check", "src/server/message.c: msg_tag_write"]}
{"id": "C36", "title": "Mappings are deleted individually", "statement": "Mapping ids on a tag are never reused; adding an identical mapping returns the existing id; deleting a mapping removes that one and leaves the others in force.", "quantifier": "every history of mapping additions and deletions", "why_tests_cant": "Position-dependent linked-list edits.", "anchors": ["src/server/mapping.c: map_add,map_del"]}
{"id": "C37", "title": "Group transfer equals the member transfers", "statement": "Reading a tag group returns the concatenation of reading each member in order; writing a group has the effect of writing each member in order from consecutive parts of the data.", "quantifier": "every group and database state", "why_tests_cant": "All member lists and states.", "anchors": ["src/server/groups.c: group_read,group_write"]}
{"id": "C38", "title": "Groups are independent", "statement": "Creating or deleting one group never changes, moves or loses another group; a group id is only given out while no other live group has it, and every id given out can be used until deleted.", "quantifier": "every history of group additions and deletions", "why_tests_cant": "Histories that mix deletion and growth.", "anchors": ["src/server/groups.c: _group_add,group_add,group_del"]}
{"id": "C39", "title": "Group limits", "statement": "A group is accepted exactly when it has at most 150 members and at most 4084 bytes of data, so that its transfer always fits one message.", "quantifier": "every member list", "why_tests_cant": "All sizes including those overflowing a 32-bit sum.", "anchors": ["src/server/groups.c: group_add", "src/lib/libmsg.c: dax_group_add"]}
{"id": "C40", "title": "Queues are first-in first-out", "statement": "The values read from a queue tag are the values written to it in the same order, each once; reading an empty queue answers EMPTY.", "quantifier": "every interleaving of writes and reads", "why_tests_cant": "Ring-buffer growth depends on head position; unbounded histories.", "anchors": ["src/server/virtualtag.c: write_queue,read_queue", "src/server/tagbase.c: _queue_add"]}
{"id": "C41", "title": "Atomic logic operations act bit by bit", "statement": "An atomic NOT/OR/AND/NOR/NAND/XOR/XNOR leaves each addressed bit equal to the named function of its old value and the operand and every other bit of the tag unchanged.", "quantifier": "every content, operand, type, position and count", "why_tests_cant": "All bit patterns and alignments.", "anchors": ["src/server/atomic.c: atomic_op,_atomic_not,_atomic_or"]}
{"id": "C42", "title": "Atomic increment and decrement", "statement": "An atomic INC (DEC) adds (subtracts) the operand modulo the width of the element and changes nothing else.", "quantifier": "every value, operand and integer type", "why_tests_cant": "Full numeric ranges.", "anchors": ["src/server/atomic.c: _atomic_inc,_atomic_dec"]}
{"id": "C43", "title": "Module status tag protection", "statement": "The identity part of a module's status tag cannot be changed by any client, the rest can be changed only by the module itself, except the one command byte which anyone may write.", "quantifier": "every writer, offset, size and data, plain or masked", "why_tests_cant": "All ranges.", "anchors": ["src/server/virtualtag.c: special_tag_write,special_tag_mask_write"]}
{"id": "C44", "title": "Server reassembles messages from any fragmentation", "statement": "However a client's byte stream is cut into reads, the server dispatches exactly the messages the client sent, complete and in order.", "quantifier": "every message sequence and every fragmentation of its byte stream", "why_tests_cant": "Exponentially many fragmentations.", "anchors": ["src/server/buffer.c: buff_read", "src/server/message.c: msg_receive,msg_dispatcher"]}
{"id": "C45", "title": "Client reassembles messages from any fragmentation", "statement": "However the server's byte stream is cut into reads, the client library obtains exactly the messages sent, in order.", "quantifier": "every message sequence and fragmentation", "why_tests_cant": "Exponentially many fragmentations.", "anchors": ["src/lib/libmsg.c: _message_get"]}
{"id": "C46", "title": "Requests arrive as they were made", "statement": "The arguments of each client call are the ones the server acts upon: decoding on the server inverts encoding in the client library.", "quantifier": "every argument tuple of every call", "why_tests_cant": "All argument values.", "anchors": ["src/lib/libmsg.c: dax_write,dax_mask,dax_event_add,dax_map_add,dax_group_add,dax_atomic_op", "src/server/message.c: msg_tag_write,msg_evnt_add,msg_map_add,msg_atomic_op", "src/server/groups.c: group_add"]}
{"id": "C47", "title": "Client event queue keeps the newest events in order", "statement": "Events that arrive while a module is busy are delivered later in arrival order; if more than the queue size arrive, exactly the oldest are discarded.", "quantifier": "every sequence of arrivals and polls", "why_tests_cant": "Interleavings of arrival and consumption.", "anchors": ["src/lib/libmsg.c: _read_next_message", "src/lib/libevent.c: dax_event_poll,dax_event_wait"]}
{"id": "C48", "title": "Tag cache returns what was learned", "statement": "A cached answer to a tag lookup is always a description of a tag of that name (or index) previously received from the server and not superseded in the cache; lookups never lose or duplicate other entries; the cache never exceeds its limit.", "quantifier": "every sequence of lookups, additions and purges", "why_tests_cant": "Pointer surgery on a circular list; unbounded sequences.", "anchors": ["src/lib/libdata.c: check_cache_name,check_cache_index,cache_tag_add,cache_tag_del,_cache_hit"]}
{"id": "C49", "title": "Event callbacks are dispatched to the right subscription", "statement": "An event received for (tag, id) invokes the callback registered for that pair and no other; after deletion it invokes none.", "quantifier": "every history of registrations and deletions", "why_tests_cant": "Array compaction on deletion; unbounded histories.", "anchors": ["src/lib/libevent.c: add_event,del_event,dispatch_event"]}
{"id": "C50", "title": "Type and event names round trip", "statement": "Converting a type or event code to its name and back yields the code, and names are recognised ignoring case.", "quantifier": "every base type and event code, every capitalisation", "why_tests_cant": "All capitalisations.", "anchors": ["src/lib/libcdt.c: dax_string_to_type,dax_type_to_string", "src/lib/libevent.c: dax_event_string_to_type,dax_event_type_to_string"]}
{"id": "C51", "title": "Text to number conversion saturates", "statement": "Converting decimal text to an integer type stores the value when representable, otherwise the nearest limit of the type together with an overflow or underflow code.", "quantifier": "every integer numeral and integer type", "why_tests_cant": "All numerals.", "anchors": ["src/lib/libfunc.c: dax_string_to_val"]}
{"id": "C52", "title": "Configuration precedence", "statement": "The value of an attribute is the command-line value if given, else the configuration-file value if given, else the default; attribute names and option letters are unique.", "quantifier": "every set of attributes, command line and file", "why_tests_cant": "All combinations.", "anchors": ["src/lib/libopt.c: dax_add_attribute,dax_configure,dax_get_attr"]}
{"id": "C53", "title": "Modbus checksum detects corruption", "statement": "A frame with its appended checksum is always accepted, and any frame obtained from it by corrupting bits within any 16 consecutive bits is rejected.", "quantifier": "every frame of any length, every error burst up to 16 bits", "why_tests_cant": "All frames and all error patterns.", "anchors": ["src/modules/modbus/mbutil.c: crc16,crc16check"]}
{"id": "C54", "title": "Modbus slave stays within its buffers", "statement": "For every request frame the slave either answers with a well formed response that fits the buffer or an exception, and never accesses memory outside its buffers or registers.", "quantifier": "every request frame", "why_tests_cant": "All byte strings.", "anchors": ["src/modules/modbus/modbus.c: create_response,_read_bits_response,_read_words_response"]}
{"id": "C55", "title": "Modbus bit and register packing", "statement": "A coil/register read response contains for every requested address the value of that coil/register, in protocol order, and padding bits are zero.", "quantifier": "every register content, start and count", "why_tests_cant": "All contents and alignments.", "anchors": ["src/modules/modbus/modbus.c: _read_bits_response,_read_words_response"]}
{"id": "C56", "title": "Modbus master requests", "statement": "The request frame built for a command contains node, function, address and count or data as the protocol defines, with a correct checksum (RTU) or length field (TCP).", "quantifier": "every command", "why_tests_cant": "All commands and data.", "anchors": ["src/modules/modbus/modbus.c: sendRTUrequest,sendTCPrequest"]}
{"id": "C57", "title": "Restart backoff is bounded", "statement": "A process that keeps dying is restarted with a delay that starts at 0, then 100 ms, doubles on each failure, never exceeds 60 s, and falls back to 0 after it ran for more than 60 s; it is never restarted before its delay elapsed.", "quantifier": "every history of deaths and clock readings", "why_tests_cant": "Unbounded histories.", "anchors": ["src/master/process.c: _process_restart,process_scan"]}
{"id": "C58", "title": "Dead-process queue", "statement": "Every child death reported to the master is handled exactly once, in any number of deaths between two scans.", "quantifier": "every sequence of deaths and scans", "why_tests_cant": "Depends on signal timing.", "anchors": ["src/master/process.c: process_dpq_add,process_scan"]}
{"id": "C59", "title": "Module registry finds registered modules", "statement": "A connection's module is found exactly while it is registered: after registering it is found, after unregistering it is not, and other modules are unaffected, in any order of lookups.", "quantifier": "every sequence of registrations, removals and lookups", "why_tests_cant": "Circular list with a moving cursor; unbounded sequences.", "anchors": ["src/server/module.c: module_add,module_del,_get_module_fd,module_find_fd"]}
{"id": "C60", "title": "Retained tags survive a restart", "statement": "After a restart every tag that was marked as retained exists with its type, count and the last value written to it.", "quantifier": "every history of retained tags and writes, every restart point", "why_tests_cant": "Crash points and repeated restarts.", "anchors": ["src/server/retain.c: ret_init,ret_add_tag,ret_tag_write"]}
{"id": "C61", "title": "The master signals only its running children", "statement": "Every signal the process master sends goes to a child it has started and has not yet seen die.", "quantifier": "every history of deaths, scans and limit readings", "why_tests_cant": "Depends on when a process dies relative to the periodic limit check.", "anchors": ["src/master/process.c: process_scan,_cleanup_process,_process_get_cpu_stat"]}
{"id": "C62", "title": "Values survive conversion to text and back", "statement": "An element of an integer, character or BOOL array converted to text and that text converted back gives the same element, without an error code and without changing any other element.", "quantifier": "every value of every such type, every position in the source and the destination array, every destination content", "why_tests_cant": "Too many values and positions; sign, width and saturation boundaries for thirteen types.", "anchors": ["src/lib/libfunc.c: dax_val_to_string,dax_string_to_val"]}
{"id": "C63", "title": "What a Modbus master writes is what the tags hold", "statement": "A write request to the Modbus slave (single or multiple coils or registers) that stays within the configured registers changes exactly the addressed coils or registers, to the values it carries, and no other bit of any tag; it is acknowledged by the beginning of the request. A request that reaches beyond the configured registers changes nothing and is answered with exception 2.", "quantifier": "every request, node configuration, address, count, carried value and every server state without mappings", "why_tests_cant": "All addresses, bit alignments, counts and values; also what must not change.", "anchors": ["src/modules/modbus/modbus.c: create_response,_write_*", "src/modules/modbus/database.c: slave_write_database"]}
{"id": "C64", "title": "The Modbus master takes over exactly what the slave answers", "statement": "When a reading command of the Modbus master is answered (after any number of silent or corrupted tries, in any pieces), the tag of the command holds exactly the bits or registers of the answer and no other byte of any tag changes; an exception, or an answer of another node or function, changes nothing; no answer makes the master read or write outside its buffers.", "quantifier": "every command, answer, division into pieces, number of tries before, and server state without mappings", "why_tests_cant": "All answers including malformed ones, all timings and alignments.", "anchors": ["src/modules/modbus/modbus.c: handleresponse,getRTUresponse,getTCPresponse,_send_read_data,mb_send_command"]}
{"id": "C65", "title": "Retries and counters of the Modbus master", "statement": "A command sends its request at most once plus the configured number of retries; as long as no valid answer comes the same request is repeated until the retries are used up. Every request is counted, and counted exactly once as answered, timed out or failed by checksum; nothing is sent after an answer; the result is positive iff there was an answer and negative only if all retries are used up.", "quantifier": "every command, number of retries and behaviour of the line", "why_tests_cant": "All sequences of timeouts, corrupted and valid answers.", "anchors": ["src/modules/modbus/modbus.c: mb_send_command,sendRTUrequest,sendTCPrequest"]}
{"id": "C66", "title": "Registers and coils cross from one OpenDAX to another over Modbus", "statement": "When the master of one OpenDAX reads registers, coils or discrete inputs from the slave of another, over a serial line or over TCP, every register or bit of the master's tag that the command names afterwards equals the one of the slave's tag at the address asked for, and nothing else in the master's database changes; if the slave does not have all that is asked for, nothing changes. When the master writes registers or coils, those of the slave that are named get the values of the master's tag and nothing else changes on either side. Over TCP it does not matter in which pieces a message arrives, and every request of allowed size is answered.", "quantifier": "all databases, registers, lengths, contents, divisions of messages into pieces, and all numbers of lost or corrupted answers before the valid one", "why_tests_cant": "All contents of both databases and all register ranges, with two byte orders and two layouts in between.", "anchors": ["src/modules/modbus/modbus.c: mb_send_command,sendRTUrequest,getRTUresponse,handleresponse", "src/modules/modbus/database.c: slave_read_database,slave_write_database", "src/modules/modbus/mbslave.c: slave_loop", "src/modules/modbus/mbserver.c: _mb_read,server_loop"]}
{"id": "C67", "title": "The name of a handle leads back to what the handle is for", "statement": "The text dax_fqn makes for a handle, resolved again by dax_tag_handle with the count of the handle, gives a handle for the same items: same tag, type, count, and position; for elements of tags, bits of integer tags and members at any depth.", "quantifier": "all types, tags, paths, indices and counts", "why_tests_cant": "Types nest without limit and BOOL members shift what follows by single bits.", "anchors": ["src/lib/libcdt.c: _fqn_callback,_fqn_cdt_member,dax_fqn,dax_tag_handle"]}
{"id": "C68", "title": "Tags are the same values in Lua", "statement": "daxlua_dax_to_lua makes of the bytes of a tag a Lua value in which every element, found under its indices and member names, equals what the tag holds there; daxlua_lua_to_dax puts every element that the Lua value has exactly where it belongs, sets the mask for exactly the bits of these elements, leaves elements that are left out (nil) alone, and leaves the Lua stack as it was; what is written so is read back equal.", "quantifier": "all types of any nesting, counts, contents, and Lua values of the shape of the type", "why_tests_cant": "Types nest without limit, each element can be left out independently, and the ranges of numbers differ between Lua and the fourteen base types.", "anchors": ["src/lib/lua/libdaxlua.c: _read_to_stack,_push_base_datatype,_read_callback,daxlua_dax_to_lua,_write_from_stack,_pop_base_datatype,_write_callback,daxlua_lua_to_dax"]}
{"id": "C69", "title": "What a script writes to a tag is in the tag, and another script reads it", "statement": "When tag_write of the Lua library (or send_tag of the module daxlua) ends with success, every element and member that the Lua value has is in the tag with that value, and every other bit of every tag is as before, whatever the buffers held; a value of the right shape for an ordinary, writable tag is not refused; tag_read (fetch_tag) gives what the tag holds; what one script writes another reads back equal.", "quantifier": "all reachable server states, handles, types of any nesting, Lua values of the shape of the type, contents of buffers, type caches", "why_tests_cant": "Which elements are left out, how the transfer is broken into messages, and what is in uninitialised buffers vary without limit.", "anchors": ["src/lib/lua/libdaxlua.c: _tag_read,_tag_write", "src/modules/daxlua/luaif.c: fetch_tag,send_tag", "src/lib/libdata.c: dax_tag_read,dax_tag_write,dax_tag_mask"]}
{"id": "C70", "title": "A module reports its state in its own status tag, and learns of commands there", "statement": "When a registered module calls dax_set_running, dax_set_faulted or dax_set_status, exactly that flag, or exactly the 64 bytes for the text, of its own status tag changes and nothing else in the server, and the call succeeds; the standard reactions to run, stop and kill clear exactly the bit of the command and set or clear the flag running; after dax_set_run_callback, dax_set_stop_callback or dax_set_kill_callback the module is notified of exactly the writes that turn that command on (the first write after it: if the command is on afterwards).", "quantifier": "all reachable server states, connections, modules, names, values and texts, all type caches of the library, all histories of writes", "why_tests_cant": "The library finds the tag by a name it reads from the server, parses a path, looks up a type, shifts bits and masks; the server decides by connection; all of these and what other modules do in between vary without limit.", "anchors": ["src/lib/libutil.c: dax_set_running,dax_set_status,dax_set_faulted,dax_default_run,dax_default_stop,dax_default_kill,dax_set_run_callback,dax_set_stop_callback,dax_set_kill_callback,dax_set_default_callbacks", "src/server/virtualtag.c: special_tag_write,special_tag_mask_write"]}
{"id": "C71", "title": "A Lua script sees its tags before it runs and its results are written afterwards", "statement": "When a script is run, before its code each global configured for reading has the value of its tag, each constant has its configured value, and a global configured only for writing is zero the first time and afterwards what the script left; _firstrun tells whether it is the first execution, and neither any other global nor any tag changes. After its code, whether it failed or not, each global configured for writing that has a value of the shape of its tag is in that tag, and no other bit of any tag has changed.", "quantifier": "all reachable servers without mappings, all configurations of globals with distinct names and disjoint targets, all scripts, values, handles and type caches", "why_tests_cant": "What a global is depends on the whole list of globals, on earlier executions, and on the layout of types; a test has one list and one layout.", "anchors": ["src/modules/daxlua/scripts.c: _receive_globals, _send_globals, run_script", "src/modules/daxlua/luaif.c: fetch_tag, send_tag"]}
{"id": "C72", "title": "Triggered scripts run in the order of their events, each once", "statement": "Of the events for triggered scripts of the Lua module, each is either refused because the queue is full or put into the queue; the scripts in the queue are started in the order of their events, each exactly once, whichever worker thread takes them and however the threads interleave; when all workers wait, none is left in the queue; a worker that is awake takes all that wait.", "quantifier": "all sizes of the queue, numbers of workers, sequences of events and interleavings of the threads", "why_tests_cant": "The order of threads and the moment at which the queue fills up cannot be controlled in a test, and are unlimited.", "anchors": ["src/modules/daxlua/threads.c: _q_push,_q_pop,__queue_thread,_script_event_dispatch,_run_queue_scripts"]}
{"id": "C73", "title": "Every configured script has its own number, and names and numbers belong together", "statement": "Scripts with different names are numbered in the order of the configuration; get_script_id gives the number of a name and nil for others; get_script_name gives the name of a number and nil for others; enable_script and disable_script mean the script with the given number; a name that is used already is refused.", "quantifier": "all configurations, names and numbers", "why_tests_cant": "The array of scripts grows with the configuration; what is behind it is found only by chance.", "anchors": ["src/modules/daxlua/scripts.c: get_new_script,del_script,get_script_name,_get_script_id,_get_script_name,_enable_script,_disable_script", "src/modules/daxlua/luaopt.c: _add_script"]}
{"id": "C74", "title": "A script runs exactly while its switch is on", "statement": "A turn executes a script exactly if the script has not failed, the module is running, and the script is enabled by the latest write to its switch, the latest command, and its own wish; the tag of the script shows whether it is enabled, whether it has failed and how often it was executed; a script that has failed is not executed again; the counter counts the executions.", "quantifier": "all histories of turns, commands, writes of other modules and messages of the server", "why_tests_cant": "Writes, commands, runs and messages can come in any order; the module reacts to messages about its own writes.", "anchors": ["src/modules/daxlua/scripts.c: run_script,_disable_self,_enable_script,_disable_script,_script_tag_callback,write_script_tag", "src/modules/daxlua/threads.c: _script_enable_dispatch,_script_disable_dispatch"]}
{"id": "C75", "title": "Interval scripts are begun once per interval", "statement": "After its scripts have run, an interval thread waits so long that the time from one begin to the next is the configured interval; it counts an overrun exactly if the scripts took longer than the interval.", "quantifier": "all intervals and all times at which the scripts begin and end", "why_tests_cant": "Times are not under the control of a test; the sign of a part of them only shows in the length of a pause.", "anchors": ["src/modules/daxlua/threads.c: _interval_thread"]}
{"id": "C76", "title": "The history of a tag follows the tag", "statement": "If changes of a tag are recorded, every recorded value is one the tag has had, with the time when it had it and in this order; the last recorded value differs from the last value by less than the threshold; a value that differs from the last recorded one by at least the threshold is recorded, and directly before it the value that came before it, once; a value that differs by less is not recorded. If writes are recorded, exactly all values are.", "quantifier": "all configurations, all sequences of write events with any values and times", "why_tests_cant": "What is recorded depends on the whole sequence of values and on which are pending; tests have a few sequences of one type.", "anchors": ["src/modules/histlog/histlog.c: _test_difference, _event_callback"]}
{"id": "C77", "title": "Gaps in the history of a tag", "statement": "If more time than the timeout has passed since the last event of a tag, a gap is recorded at a time after that event and before the new value, and then the new value; otherwise no gap is recorded. The times in a history grow.", "quantifier": "all configurations, all sequences of write events with any values and growing times", "why_tests_cant": "The order of times depends on all combinations of pending values, gaps and changes.", "anchors": ["src/modules/histlog/histlog.c: _event_callback", "src/modules/histlog/histopts.c: _add_tag"]}
{"id": "C78", "title": "Begin and end of a history", "statement": "As long as a configured tag is missing it is looked for again within twelve flushes, and afterwards not any more; the history of a tag that was found begins with a gap and its value, and ends with a gap when the logger ends.", "quantifier": "all numbers of flushes, including those where the counter overflows, and all results of searches", "why_tests_cant": "The counter of flushes overflows after 2^32 of them; all positions of the interval would have to be tried.", "anchors": ["src/modules/histlog/histlog.c: main, _add_tags, getout"]}
{"id": "C79", "title": "A message goes to the subscription that its topic matches", "statement": "A topic is taken as a match of a subscription exactly if it is one by the rules of MQTT (levels, + for one level, # for all further levels), and a message goes to the first working subscription that its topic matches, and to none if there is no such.", "quantifier": "all filters and topics, all lists of subscriptions", "why_tests_cant": "Wildcards, levels and ends of texts combine in infinitely many ways; reading behind the end of a text need not show.", "anchors": ["src/modules/mqtt/mqttopts.c: _topic_compare, get_sub"]}
{"id": "C80", "title": "Every configured subscription has an entry", "statement": "Each subscription and each publication of the configuration gets an entry of its own within the allocated array, however many there are.", "quantifier": "all numbers of entries", "why_tests_cant": "Tests have few entries; writing behind an array need not show.", "anchors": ["src/modules/mqtt/mqttopts.c: _get_new_sub, _get_new_pub"]}
{"id": "C81", "title": "The MQTT module recovers", "statement": "As long as the module is not connected it tries to connect within any 60 turns; a subscription or publication whose tags did not exist is made within ten turns after they exist; after the connection was lost and made again, all subscriptions that worked before work again.", "quantifier": "all sequences of turns, losses of the connection and results of attempts", "why_tests_cant": "It depends on the whole history of attempts and losses, and on counters that overflow.", "anchors": ["src/modules/mqtt/mqtt.c: client_loop, subscribe, publish, setup_subscribers, setup_publishers, connlost"]}
{"id": "C82", "title": "Values pass through MQTT unchanged", "statement": "Without filters, what a module publishes of a tag is what the tag contains, and what arrives is written to the tag of the subscription, which then contains exactly the message; nothing is written that was not in a message.", "quantifier": "all sizes, contents and earlier messages", "why_tests_cant": "What is left in the buffer depends on earlier messages of any size.", "anchors": ["src/modules/mqtt/mqtt.c: msgarrived, publish_callback"]}
{"id": "C83", "title": "Tags of a programmable controller keep their values", "statement": "What is read from the controller into a tag is the data of the controller element by element, at the place that type and element size (and the map of bytes, if given) say; what is written to the controller is the data of the tag, and nothing else in the controller changes; a tag that is written and read again is unchanged. No byte outside the buffers is touched, and no uninitialised byte is sent.", "quantifier": "all types, counts, element sizes, maps of bytes and contents", "why_tests_cant": "Types, counts, element sizes and maps combine freely; writes outside of a buffer and uninitialised bytes need not show.", "anchors": ["src/modules/plctag/plctag.c: _read_tag, _event_callback"]}
{"id": "C84", "title": "Tags that were read reach the server in order", "statement": "The tags that the library has read are written to the server in the order in which they were read, each once; if there is no room for one, this one is left out and the later ones still pass.", "quantifier": "all sequences of reads and writes", "why_tests_cant": "It depends on the interleaving of two threads and on the history of the indices of the queue.", "anchors": ["src/modules/plctag/plcthread.c: tag_queue_push, tag_queue_pop, __tag_queue_thread"]}
{"id": "C85", "title": "A list of words gives the topics it names", "statement": "A comma separated list of words asks for exactly the topics whose names are among its words, and for all if ALL is; every topic is shown with the name with which it is asked for.", "quantifier": "all texts, all topics", "why_tests_cant": "Any text can be given; a topic that is missing or too many shows only for this topic.", "anchors": ["src/lib/logger/daxlog.c: dax_parse_log_topics, _topic_to_string"]}
{"id": "C86", "title": "A message reaches the services that asked for it", "statement": "A message is written once by each configured service whose list asks for its topic, in order, and by no other; without services it goes to the standard output if its topic is among the default topics. A description of a service that cannot be used is refused.", "quantifier": "all lists of services, topics and texts", "why_tests_cant": "Services and topics combine freely; a pointer that was never set need not show.", "anchors": ["src/lib/logger/daxlog.c: dax_log, _add_service, _add_stdio_service, _add_syslog_service"]}
{"id": "C87", "title": "The Modbus module does what its configuration says", "statement": "After any configuration script there is one port for each add_port, in order, with the kind, serial line or network address and times it names; each command is in the list of its port, and is sent with the unit, function, register and length, with the tag and on the occasions that the script gives; each unit of a slave has the registers given last. A port or command that makes no sense is refused.", "quantifier": "all scripts: all sequences of calls of add_port, add_command and add_register with any values", "why_tests_cant": "The tables have more than twenty fields that are free numbers and texts, and calls combine in any order.", "anchors": ["src/modules/modbus/modopt.c: _add_port, _add_command, _add_register", "src/modules/modbus/mbports.c: mb_new_port, mb_set_serial_port, mb_set_network_port", "src/modules/modbus/mbcmds.c: mb_set_command, mb_set_mode"]}
{"id": "C88", "title": "A Modbus client writes each command to its own address", "statement": "In any sequence of commands, failed connections and closings of the port, each command is written to a connection that was made to the command's own address and port, or is not sent because none can be made; there is at most one connection for each address; a connection that the other side has closed is replaced.", "quantifier": "all sequences of commands to any addresses and all outcomes of the connections", "why_tests_cant": "The outcome depends on which descriptors the system gives out over a long run and on the number of addresses.", "anchors": ["src/modules/modbus/mbports.c: mb_get_connection, mb_close_port, openIPport"]}
{"id": "C89", "title": "The commands of a Modbus master get the events they ask for", "statement": "A command that is to be sent when its tag is written or changes or when its trigger is set gets each such event exactly once, as soon as the tag is there. Bit n of the enable tag of a port enables command n and at first says which commands are enabled.", "quantifier": "all lists of ports and commands, all answers of the server over any number of rounds", "why_tests_cant": "Tags may appear in any order and at any time; which are forgotten depends on the position of the command.", "anchors": ["src/modules/modbus/modmain.c: _setup_master_events, main, _setup_port, _enable_callback"]}
{"id": "C90", "title": "The command tag of a Modbus port sends the command it describes", "statement": "When the member send of the command tag of a port is set, the module sends the command that the members node, function, register and length describe, to the address in the tag. Afterwards send is 0, response is the result of this command, data begins with what was read, and all else in the tag is as it was.", "quantifier": "all contents of the tag, all answers and failures of the line, any number of retries and any contents of memory", "why_tests_cant": "The tag can hold any values; effects beyond the data read depend on what memory held before.", "anchors": ["src/modules/modbus/modmain.c: _async_command_callback, _add_async_command_tag", "src/modules/modbus/modbus.c: mb_send_command", "src/lib/libdata.c: _read_format, _write_format"]}
{"id": "C91", "title": "A Modbus master sends each command at its interval", "statement": "In each round the port sends the commands that are enabled, cyclic and whose interval has passed, in order, each to the device of the port. After the configured number of failures in a row the port is given up for the time configured, and then starts afresh. A port whose device cannot be opened goes on trying.", "quantifier": "all lists of commands and intervals, all outcomes of commands and openings, any number of rounds", "why_tests_cant": "Intervals, failures and restarts combine over unbounded runs.", "anchors": ["src/modules/modbus/modbus.c: client_loop, master_loop, mb_run_port", "src/modules/modbus/modmain.c: main"]}
{"id": "C92", "title": "The client writes the values of its command line", "statement": "A line of the client is divided into words at its spaces, but not inside quotation marks. The command write with a tag and values sets each item to the value given for it; items given as ~, and all else in the database, stay as they are. A text sets the items to its characters and to 0 after them. The command read shows every item as a text from which write restores it. A write that is refused is reported.", "quantifier": "all lines, all reachable states of the server, all tags and handles, all lists of values", "why_tests_cant": "Numbers, places and types of values and the words left out combine without bound; effects on other data must be excluded.", "anchors": ["src/modules/daxc/daxc.c: runcmd", "src/modules/daxc/daxc_tag.c: tag_write, tag_read, string_to_dax", "src/lib/libfunc.c: dax_string_to_val"]}
{"id": "C93", "title": "The client sends the override, operation or deletion that was asked for", "statement": "The override commands act on the tag that is named and on the items that are given; an operation is sent with the number it has and an operand for each item that is given; a tag is deleted only if it is the one named. If the name is not known nothing is done.", "quantifier": "all tags, handles, types and lists of operands, all answers of the server", "why_tests_cant": "Which item an operand belongs to depends on all operands before it; what is sent for unknown names depends on memory.", "anchors": ["src/modules/daxc/daxc_tag.c: override_add, override_set, override_clr, override_del, atomic_op, tag_del"]}
{"id": "C94", "title": "The client runs each line of a file of commands once", "statement": "Each line of a file of commands is run once, in order.", "quantifier": "all files with lines that fit in the buffer", "why_tests_cant": "The number of lines and where the file ends are unbounded.", "anchors": ["src/modules/daxc/daxc.c: runfile"]}
{"id": "C95", "title": "The lists of the client show every tag", "statement": "The list of all tags shows each tag that is not deleted once, in order of their indices. The list in parts shows the given number of tags from where the last list has ended, so that all tags are shown when it is given often enough.", "quantifier": "all sets of tags, all sizes of the parts and any number of parts", "why_tests_cant": "Which part the last tag falls in depends on the number of tags and the size of the parts.", "anchors": ["src/modules/daxc/daxc_tag.c: list_tags, show_tag"]}
{"id": "C96", "title": "The text files of the logger keep the history", "statement": "The text files of the logger, read in the order of their opening, have one line for each record the logger has written, in order, with the name of the tag, the time and the value, or NULL for a gap; the lines can be read in one way only. A rotation begins a new file, and files that were closed are not changed.", "quantifier": "all sequences of records, rotation events and flushes, all tags, types and values", "why_tests_cant": "Records, rotations and flushes interleave without bound, and names, times and values can be any texts.", "anchors": ["src/modules/histlog/plugins/file/dhl_file.c: write_data, flush_data, _open_file, _rotate_callback"]}
{"id": "C97", "title": "The SQLite database of the logger keeps the history", "statement": "Each tag has one row with its name, and keeps its number when the logger is started again; different tags have different numbers. Each record the logger has written is a row with the number of the tag, the time and the value, or no value for a gap. With an interval for purges, rows that are not older than it are kept.", "quantifier": "all names of tags, types, values and times, all contents of the database, all sequences of records and flushes", "why_tests_cant": "The statements are texts in buffers of fixed size; which records are lost depends on names and values and on what memory contains.", "anchors": ["src/modules/histlog/plugins/sqlite/dhl_sqlite.c: add_tag, write_data, flush_data", "src/modules/histlog/plugin.c: flush_data"]}
{"id": "C98", "title": "Events of the command-line client keep their numbers", "statement": "Each event that the client adds gets a number. When the event arrives the client prints this number, whatever was added and deleted in between, and deleting the number deletes this event and no other. The request to the server names the handle and the event type that were typed, and the value has the number that was typed. Numbers that belong to no event are refused, and the place of a deleted event can be used again.", "quantifier": "all sequences of additions and deletions, all answers of the server, all handles and decimal values", "why_tests_cant": "The number depends on the whole sequence of commands and answers; a test sees one sequence, and a read past the table goes unnoticed.", "anchors": ["src/modules/daxc/daxc_event.c: _event_callback, _convert_data_str, event_add, event_del"]}
{"id": "C99", "title": "The command line of the server counts before its configuration file, and that before the defaults", "statement": "For every spelling of the options, the socket, the address, the port and the list of modules without tags are those given last on the command line, or else those of the configuration file, or else the defaults; the configuration file is the one named on the command line or the default one. The server listens on this path, address and port, or says that they are wrong. A module is without tag if its name is a word of the list.", "quantifier": "all command lines in the spellings of getopt_long, all contents of configuration files", "why_tests_cant": "Each parameter has three sources and several spellings, with special values such as 0; tests of the project use a few fixed command lines.", "anchors": ["src/server/options.c: parsecommandline, readconfigfile, setdefaults, opt_configure", "src/server/message.c: _msg_setup_local_socket, _msg_setup_remote_socket", "src/server/module.c: _check_module_tag_exclusion"]}
{"id": "C100", "title": "The configuration of controller tags is kept or refused", "statement": "Each call of add_plctag adds one tag with the names, the count, the element size, the map of bytes and the intervals that were written, or ends with an error and adds none. A map of bytes that is accepted has one place for each byte of an element, names only bytes of the element, and its use never leaves the memory of the element.", "quantifier": "all arguments of add_plctag, all lists of tags before", "why_tests_cant": "The module has no tests of configurations; conversions of numbers to 16 bits show only for values that nobody tries.", "anchors": ["src/modules/plctag/plcopt.c: _add_plctag", "src/modules/plctag/plctag.c: _read_tag"]}
{"id": "C101", "title": "Each process runs as the user and group its entry asks for", "statement": "A process that the master starts runs as the user and the group of its entry: the number if there is one, or else the number of the name, or else that of opendax, and it cannot get back the rights of root. A process whose user or group is not known is not started. A master that runs with the rights of root for another user executes only a configuration file that belongs to root and that others cannot write.", "quantifier": "all entries, lists of processes, tables of users and groups, identities of the master, files", "why_tests_cant": "Tests do not run as root, and the identity of a child depends on the order of two calls and on the tables of the system.", "anchors": ["src/master/mstr_config.c: _set_uid_gid, _add_process, _check_config_permissions", "src/master/process.c: _set_user_group, process_start"]}
{"id": "C102", "title": "Each process gets the arguments of its entry", "statement": "A process that the master starts gets its path and then the words of the arguments of its entry, in their order and without empty words; an entry without arguments gives only the path. The list of processes shows the arguments of each process.", "quantifier": "all entries, texts of arguments, lists of processes", "why_tests_cant": "Reads beyond an array of arguments and of freed memory often have no visible effect; texts of arguments are unbounded.", "anchors": ["src/master/process.c: _arglist_tok, process_add, process_start, _print_process_list", "src/master/mstr_config.c: _add_process"]}
{"id": "C103", "title": "A configured script is what its entry says", "statement": "Each call of add_script adds one script with the name, file, thread, switches and triggers that were written, or ends with an error: so for a missing or taken name and for a trigger without tag, without type or of an unknown type. No two scripts have the same name, a thread runs exactly the scripts that name it, and a script is read from its file and from nowhere else.", "quantifier": "all lists of calls and all values of their fields", "why_tests_cant": "The number of calls and the fields are unbounded; missing fields lead to undefined behaviour that tests of valid configurations never reach.", "anchors": ["src/modules/daxlua/luaopt.c: _set_trigger, _add_script", "src/modules/daxlua/scripts.c: get_new_script, _initialize_script", "src/modules/daxlua/threads.c: _start_interval_thread"]}
{"id": "C104", "title": "Each trigger of a script gets exactly one event", "statement": "However long the tags of the triggers are missing in the server and whichever requests fail, each trigger of each script gets at most one event; when the module reports that all were created each has exactly one, for its tag, count and type, with its value in the type of the tag, and for its script. When the server has all tags and accepts all events the module comes to an end.", "quantifier": "all configurations, all sequences of answers of the server, all numbers of rounds", "why_tests_cant": "It depends on the order in which tags appear and on rare failures of single requests; tests have all tags at once and no failures.", "anchors": ["src/modules/daxlua/threads.c: _convert_lua_number, _set_trigger_events"]}
{"id": "C105", "title": "Groups are read into and written from memory of their size", "statement": "A group that was added has the size of its members together, which is at most 4084 bytes. Reading it into memory of at least this size stores exactly its data at the begin and leaves what is behind them; with less memory or if the request is refused the memory stays as it was. Writing it sends exactly the data of the group. A count that is negative is refused.", "quantifier": "all lists of handles, counts, memories, answers of the server", "why_tests_cant": "Sizes below four bytes and refused requests are corner cases; a write of a few bytes behind a buffer is rarely seen.", "anchors": ["src/lib/libmsg.c: dax_group_add, dax_group_read, dax_group_write, _message_send, _message_recv"]}
{"id": "C106", "title": "Reading back an override gives the actual data and the mask", "statement": "When an override is in force, reading it back through the library stores the data that was written for the items of the handle, not the override, and the mask that is installed for them, and nothing else in the memory of the caller. This holds for every handle, wherever in the tag it begins, and for tags of all types. A request that is refused leaves the memory, and a tag without override is reported as such.", "quantifier": "all histories of data and override requests, handles, memories of the caller", "why_tests_cant": "The usual test overrides a whole tag of integers; handles within a tag, bits and tags that were never overridden are combinations of a position and a history.", "anchors": ["src/lib/libmsg.c: dax_tag_get_override, dax_tag_add_override, _message_recv", "src/server/message.c: msg_get_override", "src/server/tagbase.c: override_get, override_add, type_size"]}
{"id": "C107", "title": "Each triggered script has its first run", "statement": "When the Lua module starts, each triggered script whose entry asks for it is put into the queue of scripts exactly once, in the order of the configuration, and runs; no other script is. If the queue is full the module waits until a worker has taken a script, and goes on. The events are set up only afterwards.", "quantifier": "all configurations, sizes of the queue, numbers of workers, interleavings of the threads", "why_tests_cant": "Whether the queue fills up at the start depends on the order of the threads and on how long scripts run.", "anchors": ["src/modules/daxlua/threads.c: _run_queue_scripts, __queue_thread, start_all_threads, _q_push, _q_pop"]}
{"id": "C108", "title": "The MQTT configuration is kept and used", "statement": "Each accepted call of add_sub or add_pub in the configuration of the MQTT module adds exactly one entry, in order, with the topic, tags, filter, quality of service, retained flag and trigger that the call gives (by default the first tag, on write, value 0); calls without a topic, with values of the wrong kind, or publications without a trigger are refused. The broker is asked for what the entries say: subscriptions and publications with their quality of service, a connection to the configured address with the configured user and password.", "quantifier": "all configurations", "why_tests_cant": "There are unboundedly many combinations of fields; the wrong ones only show with a broker that checks logins and delivery, or with values of unusual kinds and sizes.", "anchors": ["src/modules/mqtt/mqttopts.c: _add_sub, _add_pub, _get_new_sub, _get_new_pub", "src/modules/mqtt/mqtt.c: subscribe, publish_callback, client_loop"]}
{"id": "C109", "title": "Connections of the Modbus TCP server are kept apart", "statement": "The Modbus TCP server serves every open connection by itself: each connection begins with an empty buffer, also when its descriptor belonged to an earlier one, and what is sent on it depends on its own bytes and the registers only. Every open connection is watched. When a connection ends or fails, it is closed with everything that belongs to it, and the others are served on.", "quantifier": "all histories of connecting, receiving, closing and failing; all ways of answering", "why_tests_cant": "Which descriptor a new connection gets, and which connection fails when, depends on the system and on other clients; the leak only shows after very many connections.", "anchors": ["src/modules/modbus/mbserver.c: _add_fd, _del_fd, _add_connection, _del_connection, _clear_buffers, _get_buff_ptr, _receive, server_loop", "src/modules/modbus/modbus.c: mb_run_port"]}
{"id": "C110", "title": "Axes and buttons of a joystick drive their tags", "statement": "The joystick module accepts exactly the configurations whose calls have a number from 0 to 255, a name and for an axis offset and scale. Each event of a button writes its value to the tag of the last call for its number, each event of an axis writes (value + offset) * scale to its tag; nothing else is written.", "quantifier": "all configurations, events, and answers of the server to the new tags", "why_tests_cant": "Numbers, values, offsets and scales are too many to try, and wrong scaling is hidden by values for which sum and product agree.", "anchors": ["src/modules/examples/joystick/jsopts.c: _set_axis, _set_button", "src/modules/examples/joystick/daxjoystick.c: main"]}
{"id": "C111", "title": "Overrides and atomic operations from Lua use what they are given", "statement": "In Lua override_add overrides exactly the elements that its value has, with what it has there, and leaves the others alone; atomic_op sends the value and the operation it is given, and is refused with a wrong number of arguments.", "quantifier": "all states of the server, tags, values of the right shape, contents of uninitialised memory", "why_tests_cant": "What is left out of a value is filled from uninitialised memory, which tests mostly find zero; the shapes of values are unbounded.", "anchors": ["src/lib/lua/libdaxlua.c: _override_add, _atomic_op"]}
