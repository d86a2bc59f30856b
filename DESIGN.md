# Formal model of OpenDAX — design

Source modelled: `/repo` (OpenDAX, C).  All line numbers below and in the Lean
comments refer to that tree.  The code was read as text; nothing was built or run.

## 1. Approach

* Lean 4 (4.33.0), kernel-checked theorems, no own axioms, no `sorry`, no
  `native_decide`/`bv_decide`.
* The C functions are transcribed one by one into total, computable Lean
  functions.  State is an explicit record; every API function is
  `State → args → C (State × result)`.
* **Undefined behaviour is an outcome.**  `C α = ok a | ub why`.  Every access
  outside a buffer, use of a freed block, NULL dereference, failed `assert`,
  signed overflow that the code relies on, is `ub`.  Theorems therefore either prove
  that the outcome is `ok`, or say what precondition prevents `ub`.
* **Unspecified memory is an input.**  Where the C code exposes uninitialised or
  stale memory, the model function takes the bytes as an argument (`junk`),
  and theorems quantify over it.
* Bytes are `BitVec 8`; buffers are `List Byte`; C `int`/`uint32_t`
  values are `Int`/`Nat` with the wrap-around written where the code can reach it.
* Where the code violates a property of `properties.jsonl` the property's
  *negation* is proved on a concrete witness, and the strongest correct part is
  proved as a `_partial` theorem.

## 2. Files

| file | contents |
|---|---|
| `Verif/Model/*.lean` | transcription of the C code, each def citing file:lines |
| `Verif/Spec/*.lean`  | small independent specifications used in the statements |
| `Verif/Lemmas/*.lean`| helper lemmas and invariants |
| `Verif/Props/*.lean` | the property theorems, one file per area, with examples |
| `properties.jsonl` | the properties, in terms of API and observable effects |
| `MANIFEST.json` | per property: status, theorem names, what is missing |
| `tools/` | `claims.json` (source of the manifest), `manifest.py` (writes `MANIFEST.json` and section 5 below, checks the theorem names exist), `cites.py` (checks the line references of the model) |
| `seeded/LOG.jsonl` | the wrong programs tried against the theorems (section 6) |

## 3. What is modelled

The server is one state machine (`Model/Message.lean`, `handle`, `run`): a state, requests of
any connections, disconnections, and changes of the environment (clock, contents of
uninitialised memory) in any order.  `Reachable` (Spec/Api) is what a start followed by any such
history can lead to.  The other subsystems are stand-alone models, joined where a property spans
both sides (wire format, type text, handles).

| source | model | what is taken in | left out or simplified |
|---|---|---|---|
| `server/tagbase.c` | Index, Types, Cdt, Server, Tagbase, Override | name index with its bisection and block moves, tag table, add/delete/read/write/masked write, type texts, sizes, overrides, status tags | `malloc` never fails; log calls; bit offsets above 7 count as undefined |
| `server/virtualtag.c`, `func.c` | Tagbase | `_time`, `_my_name`, queues | `func.c`: only what the others call |
| `server/events.c` | Events, EventOps | all event types, their evaluation, list handling, deletion with its use of freed blocks | floating point comparison is exact (IEEE order on the bit patterns); floating deadband is an arbitrary function of the environment |
| `server/mapping.c` | Mapping | add, delete, get, execution after a write | - |
| `server/groups.c` | Groups | the array per module, limits, transfer | - |
| `server/atomic.c` | Atomic | all operations on integer types | floating add/sub arbitrary functions of the environment |
| `server/module.c` | Module (as seen by requests), ModuleRing (pointer level) | registration, status tags, exclusion list, circular list | start times come from the environment |
| `server/message.c` | Message, Wire, Buffer | argument decoding of all 27 commands, answers, event messages, reads from sockets | `select` order is arbitrary; socket errors only where a property speaks of them |
| `server/buffer.c` | Buffer | slots, reassembly | - |
| `server/retain.c`, start in `server.c` | Retain, Restore | rows of the file, what is written when, reading at start | SQL itself: a list of rows with update by row number; I/O errors |
| `lib/libmsg.c` | Wire, LibRecv, LibCache, LibCdt, LibData | encoders of all calls, receiver, answers where a property needs them | the mutex and condition variables around them (one call at a time) |
| `lib/lua/libdaxlua.c` | LibLua | conversion of tags to Lua values and back (lines 40-473) | the conversion of doubles to floats and of strings to numbers are parameters; Lua tables are association lists |
| `lib/lua/libdaxlua.c`, `modules/daxlua/luaif.c` | LuaTag | `tag_read`, `tag_write`, `fetch_tag`, `send_tag` | the handle is given; argument checks before; what `malloc` returns is an argument |
| `lib/libutil.c` | LibUtil | all but `dax_get_max_tag_msg_size` | what the library knows of names is an argument; the function called on an event is not part of the model |
| `modules/daxlua/threads.c` (parts) | ScriptQueue, LuaScript | queue of triggered scripts and its workers; pause of an interval thread | locks are not modelled below their sections; events come as steps |
| `modules/daxlua/scripts.c`, `luaopt.c` (parts) | LuaScript | table of scripts, enabling and disabling, the tag of a script and its messages | the Lua interpreter; a turn and a message do not interleave |
| `modules/daxlua/scripts.c` (parts) | LuaCycle | getting and writing the globals of a script around one execution | the code of the script is any function of server, type cache and globals; tables are values; `_trigger_data`; the Lua stack |
| `modules/histlog/histlog.c` | Histlog | deciding what is recorded, search for tags, end | times and thresholds are integers; comparison of floating point numbers is a parameter; plugins not modelled |
| `modules/mqtt/mqtt.c`, `mqttopts.c` (parts) | Mqtt | topics, arrays, main loop, payloads | the client library and the broker are inputs; Lua filters are arbitrary functions |
| `modules/plctag/plctag.c`, `plcthread.c` (parts) | Plctag | transfer of data in both directions, queue | libplctag is a copy of the memory of the tag; its conversion of floats, its answers outside and uninitialised memory are inputs |
| `lib/logger/daxlog.c` | Logger | topics, services, messages | the text of a message after formatting is an input; `dax_errstr` is left out |
| `modules/modbus/modopt.c`, `mbports.c`, `modmain.c` | ModbusConf | configuration, connections, events of commands, enable tag | Lua values of a table are inputs; the answers of the server to the events are inputs; descriptors given by the system are inputs |
| `modules/modbus/modmain.c` (command tag) | ModbusAsync | callback, type and handle of the tag | the connection is an input |
| `modules/modbus/modbus.c` (loops) | ModbusLoop | rounds of clients and serial masters, failures, start | outcomes of commands, times and openings are inputs |
| `modules/daxc/daxc.c`, `daxc_tag.c` | Daxc | words of a line, command file, write, read, override, atomic, delete, list | answers of the server to look-ups are inputs; printing is the list of texts |
| `modules/histlog/plugins` | HistPlugin | lines and files; statements and tables | text of times and opening of files are inputs; SQLite only for the statements used |
| `modules/daxc/daxc_event.c` | DaxcEvent | the table of events, values, deletion, arrival | answers of the server are inputs; waiting and polling are left out |
| `server/options.c` | ServerOpt | command line, configuration file, defaults; their use | `getopt_long` without abbreviations; `inet_aton` and the files are inputs |
| `modules/plctag/plcopt.c` | PlcConf | `add_plctag` | fields are what Lua gives |
| `master/mstr_config.c`, `process.c` (parts) | MasterConf | `add_process`, identity and arguments of a child, list of processes, check of the file | users and groups are inputs; `setuid` from its documentation; supplementary groups |
| `modules/daxlua/luaopt.c`, `scripts.c`, `threads.c` (parts) | LuaConf | `add_script`, set-up of triggers | answers of the library are inputs; values without fraction |
| `lib/libmsg.c` (groups) | LibGroup | adding, reading and writing groups, with the memory of the caller | answers are inputs; same byte order |
| `lib/libmsg.c` (overrides) | LibOverride | reading back an override, with the memory of the caller | same byte order |
| `modules/daxlua/threads.c` (start) | ScriptStart | the loop that puts scripts into the queue at the start, with the lock | workers as in ScriptQueue |
| `modules/mqtt/mqttopts.c`, `mqtt.c` (requests) | MqttConf | calls of the configuration, what the broker is asked for | the file does not catch errors |
| `modules/modbus/mbserver.c` (connections) | ModbusConns | descriptors, buffers and errors of the TCP server | what is done with the bytes is a parameter |
| `modules/examples/joystick` | Joystick | configuration and events | integers instead of floating point numbers |
| `lib/lua/libdaxlua.c` (overrides, atomic operations) | LuaOverride | the calls of the library that are made | handles are arguments |
| `lib/libcdt.c` | LibCdt, LibPath, LibFqn | type cache, sizes, member paths, handles, iteration, names of handles | - |
| `lib/libdata.c`, `libconv.c` | LibCache, LibData, Wire | tag cache, chunked transfer, BOOL alignment, conversion between equal formats | other machine formats than the server's |
| `lib/libevent.c` | LibEvent, LibNames | queue, callbacks, names | waiting with a timeout is "nothing came" |
| `lib/libfunc.c` | LibFunc | text to value and back, integers, CHAR, BOOL | REAL, LREAL, TIME texts (C library) |
| `lib/libopt.c`, `libinit.c` | LibOpt | attributes, defaults, command line, file | `getopt_long` from its documentation; a Lua file is a table of assigned globals; callbacks |
| `master/process.c`, `master.c` | Master | process list, restart delay, dead-process queue, signals | `fork`/`exec`/CPU and memory limits; configuration file |
| `modules/modbus/mbutil.c` | MbCrc | CRC table and loop | LRC |
| `modules/modbus/modbus.c`, `database.c`, `mbslave.c`, `mbserver.c`, `mbcmds.c`, `modopt.c` (parts) | Modbus, ModbusMaster | slave answers, RTU and TCP service, master requests and answers; exchanges of the master: retries, counters, receiving, transfer to and from its tag | sockets, serial line timing, port configuration, ASCII protocol, connection pool, locks |

Not modelled at all: the Lua functions of `lib/lua` themselves, `server/crc.c`
(not used by the server), the command line of the master in `master/mstr_config.c`, `master/daemon.c`,
`daxlua` and `histlog` but for the parts named above, the module `opcua`, the examples.

## 4. Trusted base

* Lean's kernel.  Every theorem named in `MANIFEST.json` depends on at most the axioms
  `propext`, `Classical.choice` and `Quot.sound` (`#print axioms`); there are no own axioms.
* The tactic `kernel_rfl` (`Lemmas/Tactic.lean`) hands an equation to the kernel as `rfl`; it adds
  nothing to the trusted base, nor does `decide +kernel`.  Both are used only for concrete witnesses
  (examples and counterexamples) and for facts about fixed tables, never in place of a general proof.
* The transcription C -> Lean, done by hand; every definition cites its lines and says what it
  simplifies.
* Environment assumptions: `malloc` never fails; 32-bit `int`, 64-bit pointers, little-endian,
  two's complement; C locale for `ctype`; glibc `malloc(0)` non-NULL; sockets deliver bytes in order.
* What comes out of uninitialised or stale memory is arbitrary but readable (an input of the
  model).  Reading a freed block is undefined behaviour unless the flag `freedReadable` of the
  environment is set; theorems that need the flag say so.
* Undefined behaviour ends a run.  A theorem about "every run" is about runs that get that far
  unless it says the outcome is `ok`.

## 5. Results per property

### Reading the theorem names

`Cnn…` belongs to property Cnn.  A name ending in `_partial` proves less than the property says;
the note in section 5 says what is missing.  Other suffixes (`C31_delete_newest`, `C07_grow_junk`)
are mostly *negations*: a concrete reachable state or input on which the code does not do what the
property says.  They are the reason why the property is only partial, and each is a defect (or at
least an undocumented limit) of the code.  An `example` after a theorem is a case meeting its
hypotheses.

Theorems renamed since the early entries of `seeded/LOG.jsonl`: `C03_read_after_write`,
`C03_history`, `C04_isolated`, `C06_masked` and `C14_history` are now
`C03_read_after_write_partial` and so on.

<!-- results: written by tools/manifest.py -->

* **C01 Name lookup agrees with the set of live tags** (proved). All reachable server states; C01_history relates lookups to the replies seen so far. Registration of modules (which adds a status tag) is excluded from the history theorem only.
  Theorems: `C01_lookup`, `C01_index`, `C01_unique`, `C01_history`.
* **C02 Tag indexes are never reused** (proved). All histories. Deleting a deleted index is answered with the argument error code.
  Theorems: `C02_stable`, `C02_dead`.
* **C03 Read returns the last write** (partial). One write followed by any read of the written range, and whole histories of reads, writes and masked writes against a client-side memory: for tags without mappings, and for tags with mappings in every byte that no mapping set off by the write (one write) or no mapping at all (histories) leads into. For a byte a mapping leads back into the property is false (C03_mapped). Assumed of mappings: the fields of their handles are 32-bit numbers and source ranges do not wrap around.
  Theorems: `C03_read_after_write_partial`, `C03_history_partial`, `C03_read_after_write_maps_partial`, `C03_history_maps_partial`, `C03_mapped`.
* **C04 Writes are isolated** (partial). For tags without mappings, all reads and queries (C04_isolated_partial); with mappings, reads of ordinary tags of all bytes outside the written range and outside the destinations of mappings that the write sets off. A mapping copies to other tags on purpose (C34), so the statement without this exception is false (C03_mapped). With mappings, reads of queue and override tags are left out.
  Theorems: `C04_isolated_partial`, `C03_history_partial`, `C04_isolated_maps_partial`, `C03_history_maps_partial`, `C03_mapped`.
* **C05 Out-of-range access is refused without effect** (partial). Ranges with non-negative offset and size below 2^31 and indexes inside the array are proved; what can be read can be written. C05_unbounded_access proves that the full claim fails: negative offsets, indexes outside the array and reads above 4088 bytes access memory out of bounds.
  Theorems: `C05_range_partial`, `C05_extent_partial`, `C05_accepted`, `C05_index_partial`, `C05_unbounded_access`.
* **C06 Masked write replaces exactly the masked bits** (partial). For ordinary tags, in every byte that no mapping set off by the write leads into; with a mapping back into the same byte the property is false (C03_mapped).
  Theorems: `C06_masked_partial`, `C06_masked_maps_partial`, `C03_history_maps_partial`, `C03_mapped`.
* **C07 New tag space reads as zero and growing keeps old data** (partial). A new tag reads as zeros (C07_new). Growing a tag keeps the old bytes (C07_grow_partial). The clause that the added bytes are zero is false for the code: realloc'd memory is not cleared (C07_grow_junk proves the negation on a reachable state).
  Theorems: `C07_new`, `C07_grow_partial`, `C07_grow_junk`.
* **C08 Re-declaring an existing tag** (proved). Ownership is stated through history: the tag was created from another connection with the owned attribute (and without the retain attribute, which makes the code ignore the others).
  Theorems: `C08_same`, `C08_accepted`, `C08_type`, `C08_owned`.
* **C09 Refused tag creation has no effect** (proved). Later behaviour is compared as complete traces (replies and event messages) of arbitrary histories; a history that is undefined behaviour without the request is not constrained.
  Theorems: `C09_no_trace`, `C09_refused`.
* **C10 Status tags count the tags** (proved). C10: every start, with or without a retention file that has no row for the two status tags, followed by every sequence of tag add and delete requests and all other requests except registrations, group writes and overrides. C10_history_partial adds registrations and disconnects when no module is excluded from having a status tag (C12_excluded). Group writes, which are outside the quantifier of the property, ignore the read-only attribute and can overwrite the status tags (C10_group_write). C10_restart: the file a server leaves behind never has such a row, so the counts are right after every restart.
  Theorems: `C10`, `C10_history_partial`, `C10_group_write`, `C10_restart`.
* **C11 Tag name grammar** (proved). For requests whose handling is free of undefined behaviour; known type, nonzero count, unused name.
  Theorems: `C11_create`, `C11_reserved`, `C11_undeletable`.
* **C12 Disconnect removes exactly the module's own tags** (partial). Status tag and owned tags die, other tags stay as they were. C12_others_partial leaves out tags 0 and 3, in which the server itself reports the deletions, and needs the module to have a status tag: C12_excluded is a run in which a module excluded from having one takes _tagcount away with it.
  Theorems: `C12_status`, `C12_owned`, `C12_others_partial`, `C12_excluded`.
* **C13 Read-only tags can only be changed by their owner** (partial). Holds for writes, masked writes, atomic operations, mappings and all other plain requests, for any sequence from connections that do not own the tag. Fails for group writes, overrides, and mappings made before the tag became read-only (proved on reachable states).
  Theorems: `C13_owned_partial`, `C13_unowned_partial`, `C13_group_write`, `C13_override`, `C13_old_mapping`.
* **C14 Override read-back** (partial). Every sequence of reads, writes, masked writes, override installs, partial or complete removals and switching on and off by any clients, against a specification view of written data and installed value/mask. Missing: servers with mappings, and bytes for which nothing was installed (C16).
  Theorems: `C14_history_partial`.
* **C15 Override status counters** (partial). Proved for all histories of tag creation, data requests, installs and switching on and off from a start of the server. The code violates it for removals and tag deletions: three concrete counterexamples are proved.
  Theorems: `C15_counters_partial`, `C15_tag_deleted`, `C15_removed_in_force`, `C15_removed_refused`.
* **C16 Installing an override affects only its range** (partial). Holds for tags whose override memory exists already (C16_range_partial; masked bits of the range by C14_history_partial). The code violates the rest: the first partial install exposes uninitialised memory, a refused install leaves an override behind, removal has no range check, reading back returns plain data from the start of the tag. For tags of type BOOL no override is ever accepted (`C106_bool`), and the first one writes outside its memory (`C16_bool`), as the size of the type counts as zero.
  Theorems: `C16_range_partial`, `C16_first_install`, `C16_refused_install`, `C16_removal_range`, `C16_read_back`, `C16_bool`.
* **C17 Type definitions are immutable and unique** (partial). Definitions never change (C17_immutable), a second definition of a name changes nothing and is accepted only for the text the server itself reports (C17_recreate_partial, assuming an uninitialised error variable is non-negative), member names of a type are distinct (C17_members). The code violates the rest: the uninitialised variable can turn the identical definition into an error, and the identical request is refused when its type names are not in the server's spelling.
  Theorems: `C17_immutable`, `C17_recreate_partial`, `C17_members`, `C17_uninitialised`, `C17_same_text_refused`.
* **C18 Compound layout has no overlap** (partial). Whenever the members can be placed below bit 2^32, the reported size is the least number of bytes in which they can be placed in order, disjointly and with non-BOOL members on byte boundaries. Beyond that the 32-bit bit count wraps and the code violates the property (C18_wrap).
  Theorems: `C18_layout_partial`, `C18_wrap`, `Places.disjoint`.
* **C19 Server and client agree on sizes** (partial). For every base type but BOOL, and for every compound type the client can fetch, from any cache that agrees with the server, client and server compute the same element size (unless the server's size is 0 or a member has 2^31 bits or more). Counterexamples proved: BOOL (1 against 0), a type without members (1 against 0), a member count of 0 (the client keeps a truncated type), a type created again (the client doubles its members).
  Theorems: `C19_base`, `C19_compound_partial`, `C19_bool`, `C19_empty`, `C20_zero_count`, `C20_doubled`.
* **C20 Type description text round trip** (partial). Fetching any type with positive int counts, by code or name, into any faithful cache gives an entry with the name and members of the server's text in the same order, leaves other entries alone and keeps the cache faithful; sending the text back is recognised as the same type unless an uninitialised variable in the server happens to be negative. Counterexamples proved: member count 0, creating a known type again, asking for an unknown name.
  Theorems: `C20_fetch_partial`, `C20_recreate_partial`, `C20_zero_count`, `C20_doubled`, `C20_unknown_name`, `C20_create`.
* **C21 Member path resolves to the member's place** (partial). Member paths of any depth, with indices and bit numbers, resolve to the specified bit position. Excluded, with witnesses: more than 248 BOOLs in a member, nested types or bit numbers behind BOOLs that are not at a whole byte, counts checked against outer indices, bit numbers of 8 and more in handles; very large types.
  Theorems: `C21_member_partial`, `C21_tag`, `C21_bit`, `C21_many_bools`, `C21_nested_bools`, `C21_bit_after_bools`, `C21_count_refused`, `C21_bit_number`.
* **C22 A handle never reaches outside its tag** (partial). For names with index and for member paths and bits at an index that exists, the handle lies inside the tag, and too many items are refused. Witnesses: the index is not checked when a member or bit follows, bit numbers are taken modulo 256, negative counts are accepted for members.
  Theorems: `C22_tag`, `C22_member_partial`, `C22_bit_partial`, `C22_index`, `C22_bit_index`, `C22_bit_wraps`, `C22_negative`.
* **C23 Member iteration matches the layout** (partial). Iteration reports every member at its place, which agrees with the server's layout and with the places paths should lead to. Excluded: types larger than 2^31 bits or that cannot be fetched. Path resolution itself disagrees where C21 fails (witness C21_many_bools).
  Theorems: `C23_partial`, `C23_server`, `C23_path`, `C21_many_bools`.
* **C24 BOOL ranges round trip at any bit offset** (partial). For every handle of BOOLs at any bit (0 to 7), of any number: a read that succeeds gives exactly the bits of the handle and zeros after them; a write that succeeds changes exactly these bits; both together give the round trip. Writes are accepted whenever the bytes sent are inside the tag and not 2041. Not provable: valid handles are refused where the library sends one byte too many (C24_refused, C24_refused_2040); masked writes ignore the caller's mask when bits are moved (C24_mask_ignored).
  Theorems: `C24_read`, `C24_write`, `C24_accepted_partial`, `C24_round_trip_partial`, `C24_refused`, `C24_refused_2040`, `C24_mask_ignored`, `C24_masked`.
* **C25 Large transfers are split without loss** (partial). For handles whose size is a whole number of elements that fit in a message: reads, writes and masked writes of any size are broken up into requests that partition the range, in order, each within the limit and of whole elements, and end; the data is what a single transfer would have given. Not provable for elements larger than a message, which are refused (C25_large_type), and for the conversion of nested types, which accesses bytes outside the data (C25_nested_outside).
  Theorems: `C25_read_partial`, `C25_write_partial`, `C25_mask_partial`, `C25_written`, `C25_read_data`, `C25_large_type`, `C25_nested_outside`, `C25_masked`.
* **C26 Write event fires exactly on overlapping writes** (partial). Proved for ranges that do not wrap around 2^32, fit in a message and writes of at least one byte; the three exclusions are shown to be real by witnesses.
  Theorems: `C26_write_partial`, `notices_addressed`, `C26_large_lost`, `C26_wrap`, `C26_empty_write`.
* **C27 Change event fires exactly on change** (partial). Proved for every history of writes, against the contents at the last notification; a BOOL range across a byte boundary makes the next write read past the remembered copy (witness).
  Theorems: `C27_change_partial`, `C27_straddle`.
* **C28 Set and reset events are edge triggered** (partial). Proved from the second write on; the first write after the subscription is characterised and fires without an edge (witnesses).
  Theorems: `C28_set_partial`, `C28_reset_partial`, `C28_set_first`, `C28_reset_first`, `C28_set_no_edge`, `C28_reset_no_edge`.
* **C29 Comparison events fire on entering the condition** (partial). Proved for all integer types but TIME over their full range, and for REAL and LREAL (GREATER and LESS, compared as IEEE numbers, NaN never in the condition; EQUAL is refused for them), for every history of aligned writes. Misaligned writes and TIME go wrong (witnesses).
  Theorems: `C29_compare_partial`, `C29_float_partial`, `C29_float_equal`, `C29_misaligned`, `C29_time_truncated`.
* **C30 Deadband events fire exactly outside the band** (partial). Proved for differences the server's arithmetic represents, with a reference per element; unsigned rises, wrapped and overflowing differences and the reference of several elements go wrong (witnesses).
  Theorems: `C30_deadband_partial`, `C30_unsigned_rise`, `C30_wrapped_fall`, `C30_overflow`, `C30_reference_per_element`.
* **C31 Event subscriptions have unique ids and are deleted individually** (partial). Identifiers are never reused (proved in full). Deletion takes out exactly the named subscription, keeps all others and silences it for good, unless it is the newest of its tag: then the code reads freed memory (C31_delete_newest); with freed blocks still readable the result also holds for the newest.
  Theorems: `C31_ids_never_reused`, `C31_delete_partial`, `C31_kept`, `C31_delete_newest`.
* **C32 Only the subscriber manages a subscription** (proved). The requests of other connections leave the whole server state unchanged. The refusal is reported to the client as success (C32_refusal_hidden).
  Theorems: `C32_only_owner`, `C32_refusal_hidden`.
* **C33 No notifications to departed modules** (partial). Nothing is ever sent to the connection of a departed module (proved in full for completed runs). No subscription of it remains if no deletion request named a non-existent identifier; otherwise the per-module counter is wrong and stale subscriptions survive with a dangling pointer (C33_stale). The clean-up itself reads freed blocks (C33_disconnect_freed).
  Theorems: `C33_cleanup_partial`, `C33_silent`, `C33_disconnect_freed`, `C33_stale`.
* **C34 Mapping copies source to destination** (partial). After a successful write that touches a mapped source range the destination holds the source bits, for byte ranges and BOOL ranges at any bit offsets, and nothing else changes; conditions: ranges inside the tags and destinations not shared by several mappings set off by the same write. Disproved on witnesses: BOOL mappings whose destination straddles more bytes than the source overrun the mask; the range check wraps around.
  Theorems: `C34_copy_partial`, `C34_frame`, `C34_straddle`, `C34_wrap`.
* **C35 Mapping chains and cycles terminate** (partial). Writes complete for every mapping graph (cycles included) whose destinations are ordinary, unwatched tags; each mapping of the written tag is applied at most once and no mapping of a destination. Disproved on a witness: a mapping whose destination tag was deleted makes the server read freed memory.
  Theorems: `C35_completes_partial`, `C35_once`, `C35_deleted_destination`.
* **C36 Mappings are deleted individually** (partial). Identifiers are never reused, identical mappings return the existing identifier; deletion characterised exactly, and individual when at most one newer mapping exists. Disproved on witnesses: deleting the oldest of four drops the two in between; deleting from an empty list follows a null pointer; a write can drop mappings.
  Theorems: `C36_ids_never_reused`, `C36_identical`, `C36_delete_exact`, `C36_delete_partial`, `C36_kept`, `C36_delete_drops`, `C36_delete_none`, `C36_write_drops`.
* **C37 Group transfer equals the member transfers** (partial). Proved: reading a group is reading its members in order (stored tags), writing a group is writing its members in order from consecutive parts of the data (members that are not read-only, status tags or mapping sources). The full statement is false in the code: a group write does not set off mappings (C37_skips_mapping), ignores read-only (C13_group_write), and a group with the virtual own-name tag cannot be read (C37_own_name). Member sizes near 2^31 are excluded.
  Theorems: `C37_read_partial`, `C37_write_partial`, `C37_skips_mapping`, `C37_own_name`, `C13_group_write`.
* **C38 Groups are independent** (partial). Proved: a deletion removes exactly that group; requests other than group additions/deletions of the same client and everything done by others keep all groups; additions give an unused id and keep all other groups as long as the connection never deleted a group. The full statement is false in the code: after a deletion the array grows from a wrong place and overwrites a live group (C38_overwrites) or drops all (C38_loses_all).
  Theorems: `C38_add_partial`, `C38_refused_partial`, `C38_delete`, `C38_kept`, `C38_history_partial`, `C38_overwrites`, `C38_loses_all`.
* **C39 Group limits** (partial). Proved: with sizes not near 2^31 the server accepts a group exactly when it has at most 150 members and 4084 bytes (`C39_accept_partial`); every answer to a group read fits one message (`C39_fits`); the library sends a group exactly within the same limits, in one message (`C39_client`), and what it sends the server accepts, for all sizes (`C39_library`). Fails for other clients: the 32-bit sum wraps (`C39_overflow`).
  Theorems: `C39_accept_partial`, `C39_fits`, `C39_overflow`, `C39_client`, `C39_library`.
* **C40 Queues are first-in first-out** (partial). From creation on, every history of accepted and refused writes, reads of one value and anything else clients do (group transfers apart) is the behaviour of a FIFO queue as long as at most sixteen values wait; the next read gives the first unread value or EMPTY. Not provable: growth beyond sixteen goes through uninitialised pointers (C40_growth_undefined) or mixes values (C40_growth_mixes); reads of another size lose part of a value (C40_short_read).
  Theorems: `C40_fifo_partial`, `C40_order_partial`, `C40_next_partial`, `C40_growth_undefined`, `C40_growth_mixes`, `C40_short_read`.
* **C41 Atomic logic operations act bit by bit** (partial). Proved for every content, operand and type in the ranges named by Handle.Works (the ones for which the code is right); a refused operation changes nothing. Counterexamples proved: operands of an offset OR, bit ranges ending at a byte boundary, negated functions on bits within one byte, and ranges past the end that are not refused (the bounds check compares bytes with bits).
  Theorems: `C41_logic_partial`, `C41_refused`, `C41_offset`, `C41_byte_end`, `C41_negated`, `C41_overrun`.
* **C42 Atomic increment and decrement** (partial). Proved for every integer type of the specification table, value and operand, whenever the request is answered. Counterexamples proved: TIME is treated as 32 bit; incrementing the largest DINT is signed overflow, undefined in C.
  Theorems: `C42_add_partial`, `C41_refused`, `C42_time`, `C42_overflow`.
* **C43 Module status tag protection** (partial). Identity part: proved for every request of every kind by every client, and over whole histories. The rest: proved for every client for which the server does not have the tag on record as its own (never registered, or its registration made another tag). Counterexample proved: two modules can share one status tag (names A, A000, A), so that one changes the other's. Connections are assumed to differ from -1.
  Theorems: `C43_identity`, `C43_history`, `C43_others_partial`, `C43_not_own`, `C43_shared`.
* **C44 Server reassembles messages from any fragmentation** (partial). Proved for any number of clients and any interleaving of pieces, if no piece contains bytes of two requests, the first piece of a request has four bytes, no piece ends one byte before the end of a request, and there is no second of silence and no read error inside one; each of these conditions is necessary: a witness is proved for each. Unknown commands also break the stream.
  Theorems: `C44_reassembly_partial`, `C44_coalesced`, `C44_one_short`, `C44_silence`, `C44_short_start`, `C44_unknown_command`, `C44_replay`.
* **C45 Client reassembles messages from any fragmentation** (partial). Every message sequence, every cut outside headers (or also behind the header), timeouts between messages. The code violates the rest: a cut inside a header over-reads, a timeout inside a message loses the part already read; both proved on a concrete stream.
  Theorems: `C45_reassembly_partial`, `C45_header_cut`, `C45_timeout_inside`.
* **C46 Requests arrive as they were made** (partial). All 27 calls of the client library that make a request, against the argument decoding of all handlers: with arguments in range the message fits, and the server handles exactly the request the call stands for, whatever lies behind the message in its buffer; BOOL overrides bit by bit. Refused calls send nothing. Fails, with proofs, for tag names of 29-32 characters, overrides above 2038 bytes, event data on some compound types, offsets from 2^31, and overrides with a bit number above 7. Of the answers only that of dax_map_get is treated here (types: C19/C20, tags: C48).
  Theorems: `C46_carried_partial`, `C46_refused`, `C46_map_reply`, `C46_tag_name`, `C46_override_big`, `C46_event_compound`, `C46_far_offset`, `C46_bit_lost`.
* **C47 Client event queue keeps the newest events in order** (proved). Model of push_event/_pop_event/dax_event_poll/dax_event_wait with the fixed 8-slot pointer array; for every sequence of arrivals, polls, waits, event_add and event_del the concrete queue behaves as the abstract one: events in order, overflow drops the oldest, no event delivered twice or invented. Event messages are assumed to carry at least the 8 bytes (index, id) every server event has; waiting is modelled as a timeout on an empty queue.
  Theorems: `C47_queue`, `C47_newest`.
* **C48 Tag cache returns what was learned** (partial). Pointer-level model of the circular list; for every sequence of lookups, additions and deletions and any limit, no dangling pointer or endless search, answers are for the name or index asked and current with respect to the tag's index, entries are kept. Assumes the server gives one name per index (C02) and names of at most 32 characters. Recorded failures: a name used again is answered with the deleted tag's index; a limit of 0 holds one entry.
  Theorems: `C48_answers_partial`, `C48_entries_partial`, `C48_limit_zero`, `C48_stale_name`.
* **C49 Event callbacks are dispatched to the right subscription** (proved). Each dispatched event calls exactly the callback registered under its tag index and event id with its own user data, and after deletion none. Same hypotheses as C47.
  Theorems: `C47_queue`, `C49_invokes`, `C49_deleted`.
* **C50 Type and event names round trip** (partial). All base types, all named event types, every capitalisation; compound types too when the client can fetch them and its cache says what the server says. Recorded failure: EVENT_DELETED, which the server accepts, has no name in either direction.
  Theorems: `C50_base`, `C50_compound_partial`, `C50_events`, `C50_events_only`, `C50_deleted`.
* **C51 Text to number conversion saturates** (partial). Proved for all decimal texts, all integer types, all buffer positions, except where the code disagrees: WORD/UINT and a number outside 64 bits gives the wrong limit and code (C51_word_huge), LWORD/ULINT and the text -0 gives an underflow code (C51_minus_zero). A CHAR text of one character is that character by design. Text with a leading zero is octal by the C library's rules and not counted as decimal.
  Theorems: `C51_saturates_partial`, `C51_word_huge`, `C51_minus_zero`.
* **C52 Configuration precedence** (partial). Uniqueness holds in full. Precedence holds for every declared set of attributes, every command line that spells known options, and every file, except where the code departs from it: config is freed after the file is read, confdir in the file is ignored, false in the file for an attribute without argument means Yes, names of predefined Lua globals, optional arguments left out, long-only options, unknown options. Each exception has a theorem with a witness. getopt_long and Lua are modelled from their documentation; attribute callbacks are not modelled.
  Theorems: `C52_unique`, `C52_refused`, `C52_precedence_partial`, `C52_config_freed`, `C52_confdir`, `C52_false_is_yes`, `C52_predefined`, `C52_optional`, `C52_no_letter`, `C52_case`, `C52_unknown`, `C52_second_without_letter`, `C52_null_name`.
* **C53 Modbus checksum detects corruption** (partial). The table-driven checksum equals polynomial division (x^16+x^15+x^2+1, reflected, start 0xFFFF) for every message; a frame with its own checksum is accepted; every error burst of 1 to 16 bits anywhere in a frame of at most 65537 bytes is detected. The statement without a length limit is false: crc16 takes its length as an unsigned short, so longer frames are checked over a cut-down length (C53_long, witness).
  Theorems: `C53_polynomial`, `C53_accepted`, `C53_burst_partial`, `C53_long`.
* **C54 Modbus slave stays within its buffers** (partial). create_response and its helpers, the RTU loop's answer and the TCP buffer handling: for every frame whose count is within Limits (so that the answer with checksum or header fits and a written count is covered by the frame) no access leaves the buffers, the frame sent is an answer or exception the protocol allows, and checksum or length are right, for any contents of uninitialised memory. Outside these limits the code does overrun: the _overrun, _lying_count, _checksum_overrun, _unanswered and _diagnostics theorems give witnesses. The register tags are assumed to be ordinary tags that nobody maps (RegTag). select/read timing and the serial gap timer are not modelled.
  Theorems: `C54_response_partial`, `C54_registers_partial`, `C54_rtu_partial`, `C54_tcp_partial`, `C54_registers_overrun`, `C54_lying_count`, `C54_unanswered`, `C54_checksum_overrun`, `C54_diagnostics`.
* **C55 Modbus bit and register packing** (partial). Every requested register or bit is in the answer in protocol order, with exactly the tag's value; beyond the configured size exception 2. Missing because false: padding bits are what the request had there (C55_padding); without a read callback an uninitialised variable decides about an exception (C55_uninitialised), which the theorems exclude by hypothesis (Allowed).
  Theorems: `C55_registers_partial`, `C55_bits_partial`, `C55_padding`, `C55_uninitialised`.
* **C56 Modbus master requests** (partial). For every command mb_set_command accepts, any contents of its memory and of the uninitialised buffer: the bytes sent are the frame of the protocol with an accepted checksum (RTU) or transaction number, protocol number and length (TCP). Missing because false: RTU function 6 loses the high byte, RTU function 15 uses an uninitialised byte as count, 125 registers overflow an 8 bit length, TCP function 5 leaves its last byte uninitialised; each has a witness.
  Theorems: `C56_configured`, `C56_rtu_partial`, `C56_tcp_partial`, `C56_rtu_word`, `C56_rtu_coils`, `C56_rtu_coils_overrun`, `C56_rtu_length`, `C56_tcp_coil`.
* **C57 Restart backoff is bounded** (partial). Safety (never early, with the delay the specification computes from the history) and liveness (the first scan two milliseconds after the delay restarts it), for every history. Missing: clock readings more than 24 days apart, where the interval overflows an int (C57_clock_set_back), and a process whose very first fork failed, whose state field is uninitialised.
  Theorems: `C57_backoff_partial`, `C57_clock_set_back`, `delay_values`.
* **C58 Dead-process queue** (partial). Handled and waiting deaths together are a permutation of the reported ones for every interleaving of signals with the slots of a scan. False in general: an eleventh death between two scans runs off the queue (C58_overflow, C58_full_reachable).
  Theorems: `C58_exactly_once_partial`, `C58_drained`, `C58_room`, `C58_effect`, `C58_overflow`, `C58_full_reachable`.
* **C59 Module registry finds registered modules** (proved). Pointer-level model of the circular list of modules (module_add, module_del, _get_module_fd, module_find_fd, and the parts of module_register/module_unregister that use the list). Every sequence of registrations, removals and lookups answers exactly as a table of connections, with no dangling pointer and no endless loop; every operation is accepted as long as the allocator proposes a free address.
  Theorems: `C59_lookup`, `C59_accepts`.
* **C60 Retained tags survive a restart** (partial). C60_partial: tags of any base type except BOOL, created as retained under a name not retained before in this life of the server: after any history of requests, disconnections and restarts of modules, as long as the tag exists with the count it was created with, a restart brings it back with name, type, count, and it answers every read as before. Missing because the code violates it (theorems on concrete histories): BOOL values are not stored; a restored tag is not retained any more, so the second restart loses it, and declaring it again does not store its value; values written before the tag was declared retained; growth; deleted tags come back, and shadow a new tag of the same name; a retained queue or a tag of the first compound type crashes. Compound types in general are not covered by the theorem (C60_compound shows one case; the type may get another number). Assumes fewer than 1024 tags in both lives (beyond that the retention row of a tag is uninitialised memory). The file is modelled as the two SQLite tables.
  Theorems: `C60_partial`, `C60_bool`, `C60_twice`, `C60_redeclared`, `C60_marked_late`, `C60_grown`, `C60_deleted`, `C60_readded`, `C60_compound`, `C60_queue`, `C60_first_type`.
* **C61 The master signals only its running children** (partial). Proved when every process is to be restarted and its first fork succeeded. False otherwise: kill(0, SIGQUIT) reaches the whole process group (C61_kills_group).
  Theorems: `C61_signals_partial`, `C61_kills_group`.
* **C62 Values survive conversion to text and back** (partial). All integer types, CHAR and BOOL. Missing: the NUL character (printed as empty text, reading it back looks past the end), and TIME, REAL, LREAL, whose text conversion is left to the C library and not modelled.
  Theorems: `C62_round_trip_partial`, `C62_bool`.
* **C63 What a Modbus master writes is what the tags hold** (partial). Proved for registers and coils of tags that anybody may write, on a server without mappings, if the exchange is defined (C54) and the uninitialised variable of the slave is 0. Fails: a refused write is acknowledged (47 coils, C63_lost); a count of 0 writes an uninitialised byte (C63_no_coils); an exception of the write callback comes after the write (C63_exception_written); an uninitialised variable refuses requests (C63_uninitialised); any value but 0 switches a coil on (C63_any_value).
  Theorems: `C63_registers_partial`, `C63_coils_partial`, `C63_lost`, `C63_no_coils`, `C63_exception_written`, `C63_uninitialised`, `C63_any_value`.
* **C64 The Modbus master takes over exactly what the slave answers** (partial). Proved for well formed answers: C64_answer (memory of the command, no access outside), C64_foreign, and for whole exchanges over serial line and TCP with answers of at most 256 bytes and nothing pending, for tags not larger than the command. Fails: byte counts larger than asked for (C64_overrun), more than 1024 bytes on the serial line (C64_long), less than 6 bytes over TCP (C64_short), TCP answers of more than 256 bytes (C64_truncated), late answers over TCP (C64_stale), exceptions with code 0 (C64_exception_zero), tags larger than the command (C64_larger_tag).
  Theorems: `C64_answer`, `C64_foreign`, `C64_registers_partial`, `C64_bits_partial`, `C64_overrun`, `C64_long`, `C64_short`, `C64_truncated`, `C64_stale`, `C64_exception_zero`, `C64_larger_tag`.
* **C65 Retries and counters of the Modbus master** (partial). The accounting holds for every exchange (C65_accounting). Repetition of the request until the retries are used up is proved for commands that read. It fails for commands that write on change: they are not repeated and the value is lost (C65_changes_lost).
  Theorems: `C65_accounting`, `C65_retries_partial`, `C65_changes_lost`.
* **C66 Registers and coils cross from one OpenDAX to another over Modbus** (partial). Proved for functions 1, 2, 3, 4, 5 and 16 over the RTU protocol and for 1, 2, 3, 4, 6, 15 and 16 over TCP with the message in any pieces (C66_tcp_pieces), for tags of type BOOL and UINT without mappings, overrides or special attributes, under the conditions of C55, C63 and C64. The property fails over TCP: the buffer of the server has no room for an answer with more than 123 registers though 125 are allowed (C66_tcp_large), after such a request the connection never answers anything again until nothing arrives on any connection for a second (C66_tcp_stuck, for all later messages), and of two requests in one piece only the first is answered (C66_tcp_pipelined). The remaining writes are those that C56 shows to be wrong on the wire (6 and 15 over RTU, 5 over TCP). Missing: that the whole exchange ends (that is C54 for the slave; for the master the result of the exchange is a hypothesis).
  Theorems: `C66_read_registers_partial`, `C66_read_bits_partial`, `C66_write_registers_partial`, `C66_write_coil_partial`, `C66_tcp_registers_partial`, `C66_tcp_bits_partial`, `C66_tcp_write_registers_partial`, `C66_tcp_write_coils_partial`, `C66_tcp_write_register_partial`, `C66_tcp_pieces`, `C66_tcp_large`, `C66_tcp_stuck`, `C66_tcp_pipelined`.
* **C67 The name of a handle leads back to what the handle is for** (partial). Proved without exception for elements of tags (C67_tag). For bits of integer tags missing only the case in which the number of bits is by chance the number of elements of the tag: the index is left out, and the name is refused (C67_index_lost). For members: the name made for a handle is exactly the path, and leads back to the same items, at any depth. Missing and false in the code: the first thing in a nested type gets the name of the nested type (C67_first_member), bit 0 of an integer member the name of the integer (C67_bit_zero), and BOOL members whose odd bits add up to more than a byte are counted wrong (C67_no_carry: the name for an integer member is the name of one of its bits). Also missing: paths outside C21, texts of 1024 characters or more (they are written outside the array), the search for the tag by its index (C48, here a parameter).
  Theorems: `C67_member_partial`, `C67_inverse_partial`, `C67_tag`, `C67_bit_partial`, `C67_first_member`, `C67_bit_zero`, `C67_no_carry`, `C67_index_lost`.
* **C68 Tags are the same values in Lua** (partial). Proved for all types and nestings: reading (integers, BOOL, LREAL, TIME exact; 64-bit integers without sign below 2^53; REALs only their integer part; CHAR arrays as text), writing of values of the right shape (integers in range and below 2^53; elements and members left out), and both together. The full statement is false: REALs lose their fraction when read and infinite ones are undefined behaviour (C68_real_lost, C68_real_infinite), ULINTs come out negative or rounded, LINTs are rounded when written, TIME is written in four bytes of eight, numbers out of range are undefined behaviour, a string that is shorter than a CHAR array publishes uninitialised bytes, a string for a BOOL array overruns the mask, nil for a whole tag writes 0, and an array of compound type that is left out unbalances the stack, after which the next member is looked up in a string. The rounding of doubles to floats and the reading of numbers in strings are parameters.
  Theorems: `C68_read_partial`, `C68_write_partial`, `C68_round_partial`, `C68_text_partial`, `C68_real_lost`, `C68_real_infinite`, `C68_ulint_negative`, `C68_ulint_rounded`, `C68_lint_rounded`, `C68_time_half`, `C68_time_array`, `C68_int_range`, `C68_short_text`, `C68_text_bool`, `C68_char_text`, `C68_nil_zero`, `C68_array_left_out`.
* **C69 What a script writes to a tag is in the tag, and another script reads it** (partial). Proved from the Lua value to the memory of the server and back, for all types and nestings with elements of at most 2040 bytes and tags without mappings; the restrictions of C68 on values apply (REALs excluded from the round trip). Fails: BOOLs that are left out of an array are overwritten with what malloc left unless the array begins at a byte and has a multiple of eight elements, because dax_tag_mask ignores the mask then (C69_bools_left_out).
  Theorems: `C69_write_partial`, `C69_bools_partial`, `C69_accepted_partial`, `C69_read_partial`, `C69_read_bools`, `C69_round_partial`, `C69_bools_left_out`.
* **C70 A module reports its state in its own status tag, and learns of commands there** (partial). Proved from the call of the library to the memory of the server, for states in which the status tag and the tag `_my_tagname` exist, the status tag is not overridden and no tag is the source of a mapping; each call is shown to leave the module in such a state, so calls can follow each other. Setting a callback is shown to give the right subscription if the server grants it. A text of 64 or more characters is cut off and then has no terminating zero, which follows from the specification of the text. Not covered: the thread in which the callback runs (C45 to C47 treat the dispatch of events), loss of the first edge (`C28_set_no_edge`).
  Theorems: `C70_flag`, `C70_status`, `C70_run`, `C70_kill`, `C70_callback`, `C70_defaults`, `C70_first`, `C70_command`.
* **C71 A Lua script sees its tags before it runs and its results are written afterwards** (partial). Fails: the first global whose value does not suit its tag ends the writing, so that those configured before it are not written at all, and `run_script` does not look at it (`C71_rest_lost`). Missing: tags that do not exist, tags with mappings, floats above 2^63, BOOLs that are left out (C69), `_trigger_data`.
  Theorems: `C71_begin_partial`, `C71_end_partial`, `C71_cycle_partial`, `C71_rest_lost`.
* **C72 Triggered scripts run in the order of their events, each once** (partial). Found: the flag for a full queue compares the last index before it wraps, so a queue that fills up while the first index is 0 is not seen as full, and the next event overwrites the oldest script (C72_overwritten); the queue does not count as empty at the start, so a spurious wakeup runs what malloc left (C72_spurious); an event before the workers wait is not served until the next one (C72_lost_signal); a size of 0 writes outside (C72_no_room).  Proved for all sizes, workers, histories and interleavings in which these do not occur; the indices stay inside the array without any condition.
  Theorems: `C72_order_partial`, `C72_served_partial`, `C72_drains_partial`, `C72_inside`, `C72_overwritten`, `C72_spurious`, `C72_lost_signal`, `C72_no_room`.
* **C73 Every configured script has its own number, and names and numbers belong together** (partial). Found: scripts_size is not updated when the array grows, so the seventeenth script is written behind the array, for every configuration with that many (C73_overflow); get_script_name reads before the array for negative numbers (C73_negative); numbers are cut to 32 bits (C73_wide).  Proved for all configurations of up to sixteen scripts.
  Theorems: `C73_table_partial`, `C73_duplicate`, `C73_overflow`, `C73_negative`, `C73_wide`.
* **C74 A script runs exactly while its switch is on** (partial). Found: the module reacts to messages about its own writes; if one is on its way when the script disables itself, the script is switched on and off for ever (C74_flicker); disabling by a command is not shown in the tag, so that writing the switch cannot enable the script again (C74_stuck).  Proved for all histories: which turns execute, failure is final, the counter; for histories without commands in which messages are handled at once: the switch as users see it.  A turn and a message do not interleave in the model.
  Theorems: `C74_turn`, `C74_failed_for_ever`, `C74_counts`, `C74_switch_partial`, `C74_flicker`, `C74_stuck`.
* **C75 Interval scripts are begun once per interval** (partial). Found: the difference of the nanoseconds is added instead of subtracted.  The pause grows by the time the scripts took (C75_longer), overruns within a second are never counted (C75_missed), others are counted wrongly (C75_false_overrun); intervals above 4294967 ms wrap (C75_short).  C75_period gives the period for all times; it is right if the parts of a second are equal (C75_interval_partial).
  Theorems: `C75_interval_partial`, `C75_period`, `C75_longer`, `C75_missed`, `C75_false_overrun`, `C75_short`.
* **C76 The history of a tag follows the tag** (partial). Proved for BYTE, SINT, CHAR, INT, DINT and LINT. Fails: the difference of UDINT, DWORD, ULINT and LWORD wraps around, so that an increase by 1 counts as a very large change and one from 0 to the largest number as 1 (`C76_unsigned`); UINT and WORD are read as four bytes where there are two (`C76_uint`); TIME is compared by its lower half (`C76_time`); no change of a BOOL is ever recorded (`C76_bool`). Missing: REAL and LREAL, differences of DINT or LINT that overflow (undefined in C).
  Theorems: `C76_test`, `C76_true`, `C76_near_partial`, `C76_step_partial`, `C76_writes`, `C76_unsigned`, `C76_uint`, `C76_time`, `C76_bool`.
* **C77 Gaps in the history of a tag** (partial). Fails: the time of the last event is 0 at first, so that the first event always comes after a gap, and the gap is recorded before the start of the history if that is less than the timeout ago (`C77_first`); a value that is kept until the next change is lost if a gap follows (`C77_pending`). Missing: order if writes are recorded (two times are asked for in one event).
  Theorems: `C77_gap_partial`, `C77_order_partial`, `C77_first`, `C77_pending`.
* **C78 Begin and end of a history** (partial). Fails: if a tag was never found or is of a compound type, at the end a pointer that was never set is given to the plugin (`C78_unfound`). Not modelled: a search that ends with another error than that the tag was not found is not repeated; the plugins (their `flush_data` expects an argument that it is not given).
  Theorems: `C78_search`, `C78_found`, `C78_begin`, `C78_end_partial`, `C78_unfound`.
* **C79 A message goes to the subscription that its topic matches** (partial). Whatever is taken as a match is one. Fails: if a filter ends in `+`, for every topic that matches it is read behind the ends of both texts (`C79_plus_end`), also if the topic ends at a `+` of the filter (`C79_few`); `#` alone matches nothing (`C79_hash`), neither does `+/#` (`C79_plus_hash`); `a/#` does not match `a` (`C79_parent`).
  Theorems: `C79_sound`, `C79_match_partial`, `C79_first_partial`, `C79_plus_end`, `C79_hash`, `C79_plus_hash`, `C79_parent`, `C79_few`.
* **C80 Every configured subscription has an entry** (partial). Fails: the size of the array is not adjusted when it is enlarged, so that the 33rd entry is written behind it (`C80_overflow`).
  Theorems: `C80_room_partial`, `C80_overflow`.
* **C81 The MQTT module recovers** (partial). Connecting and subscribing are proved. Fails: a publication whose tag does not exist when the broker is first reached is never tried again (`C81_publisher_lost`, `C81_publisher_first`); after the connection was lost no subscription is made again, although the session is a clean one (`C81_resubscribe`, `C81_resubscribe_first`).
  Theorems: `C81_connect`, `C81_subscribe`, `C81_publisher_lost`, `C81_publisher_first`, `C81_resubscribe`, `C81_resubscribe_first`, `C81_held`.
* **C82 Values pass through MQTT unchanged** (partial). Fails: after a payload that is too short, or a filter that fails, bytes of an earlier message or of uninitialised memory are written (`C82_short`, `C82_filter`); a subscription without tags uses handles that do not exist (`C82_no_tags`). Filters are not modelled: only that they may fail or fill the buffer.
  Theorems: `C82_transfer_partial`, `C82_size`, `C82_short`, `C82_filter`, `C82_no_tags`.
* **C83 Tags of a programmable controller keep their values** (partial). Proved for all types of fixed size but LREAL, for BOOL bit by bit, and for compound types with and without a map. Fails: LREAL is read as a float of four bytes but written as one of eight (`C83_lreal`); a map that names a byte twice is accepted and lets uninitialised bytes go to the controller (`C83_map_twice`); element sizes of compound types are not compared with the size of the tag, so that the buffer is overrun (`C83_overrun`); if the element size is not known an array of size -1 is made (`C83_unknown`). Byte order: the controller's copy is taken to be in the order of the machine, as libplctag delivers it.
  Theorems: `C83_read_partial`, `C83_write`, `C83_round_partial`, `C83_bool_read`, `C83_bool_write`, `C83_map_read`, `C83_map_write`, `C83_map_round`, `C83_raw_read`, `C83_raw_write`, `C83_lreal`, `C83_map_twice`, `C83_overrun`, `C83_unknown`.
* **C84 Tags that were read reach the server in order** (partial). Order is proved as for C72, with the same condition on when the queue fills up. Fails: a refused tag leaves the lock taken; no tag passes any more and both threads wait for ever (`C84_stuck`, for all continuations); a queue that fills up for the first time is not seen to be full and its tags are lost (`C84_overwritten`).
  Theorems: `C84_order_partial`, `C84_stuck`, `C84_overwritten`.
* **C85 A list of words gives the topics it names** (partial). Fails: LOGIC and LOGICERR are topics with names that are shown, but the names are not recognised (`C85_logic`).
  Theorems: `C85_parse_partial`, `C85_name`, `C85_logic`.
* **C86 A message reaches the services that asked for it** (partial). Proved from the configuration to the message for complete descriptions. Fails: a service with a file name other than stdout or stderr is accepted and its first message is written through a pointer that was never set (`C86_file`); NULL is compared if type, file or priority is missing (`C86_no_file`).
  Theorems: `C86_log_partial`, `C86_configured_partial`, `C86_room`, `C86_file`, `C86_no_file`.
* **C87 The Modbus module does what its configuration says** (partial). Proved for every script for all that makes sense; with numbers within the C types a script is free of undefined behaviour (`C87_defined`). Fails: the parity is never stored (`C87_parity`); with 0 retries the timeout is set to 1 ms (`C87_timeout`); an unknown speed sets speed 0 (`C87_speed`); a port without a type compares NULL (`C87_type`); a command that is refused stays in the list, enabled (`C87_refused`, `C87_nounit`); a command without a tag has a tag name that was never set (`C87_notag`); a trigger without a tag makes a command that is never sent (`C87_never`); a number outside of its type is undefined (`C87_range`).
  Theorems: `C87_script_partial`, `C87_defined`, `C87_parity`, `C87_timeout`, `C87_speed`, `C87_type`, `C87_refused`, `C87_nounit`, `C87_notag`, `C87_never`, `C87_range`, `C87_number`.
* **C88 A Modbus client writes each command to its own address** (partial). Proved for at most 2048 addresses, and, unless connections persist, for commands that are sent in a scan. Fails: without persistent connections a command sent by an event between two scans leaves a closed descriptor in the pool, and a later command is written to another device (`C88_wrong`); with 2048 connections the next is written outside of the array (`C88_full`); a failed attempt leaves its socket open (`C88_leak`); a connection that the other side closed is used for ever (`C88_dead`).
  Theorems: `C88_own_partial`, `C88_wrong`, `C88_full`, `C88_leak`, `C88_dead`.
* **C89 The commands of a Modbus master get the events they ask for** (partial). Proved: no event twice; every round that tries gives all events whose tags are there (`C89_made_partial`, `C89_first`); the last command of the last port gets its event whenever its tag comes in the first 60 rounds (`C89_last`); the enable tag (`C89_enable`, `C89_bits`). Fails: errors of all ports but the last are dropped (`C89_forgotten`), of all commands but the last (`C89_overwritten`), of all kinds but the last (`C89_kinds`), an error −1 counts as success (`C89_minusone`), and nothing is tried after 60 rounds (`C89_minute`).
  Theorems: `C89_once`, `C89_made_partial`, `C89_first`, `C89_last`, `C89_forgotten`, `C89_minute`, `C89_overwritten`, `C89_kinds`, `C89_minusone`, `C89_enable`, `C89_bits`.
* **C90 The command tag of a Modbus port sends the command it describes** (partial). Proved for reads with a connection: members where the callback looks for them (`C90_layout`), the request (`C90_request_partial`), what is taken from the answer (`C90_taken`), what is written back (`C90_reply`). Fails: reading and writing the tag converts a whole element in a buffer of 15 bytes, an access outside of it on every command (`C90_outside`, `C90_outside_run`); all ports but the first use a type that was never set (`C90_types`); answers with more than 120 registers are written behind the area (`C90_overflow`); without a connection the response is that of the command before (`C90_stale`); the elements of data that were not read are overwritten (`C90_clobber`); a function that is not known is undefined on a serial line (`C90_function`). Missing: the frame of writes.
  Theorems: `C90_layout`, `C90_reply`, `C90_request_partial`, `C90_taken`, `C90_types`, `C90_overflow`, `C90_stale`, `C90_outside`, `C90_outside_run`, `C90_clobber`, `C90_function`.
* **C91 A Modbus master sends each command at its interval** (partial). Proved for clients, and for serial masters that persist and have no limit of failures (`C91_client`, `C91_master_partial`); the count of failures (`C91_failures`, `C91_inhibited`). Fails: a serial port that does not persist, which is the default, loses its device after the first round that is quick (`C91_lost`); after a restart the first failure gives the port up again (`C91_again`); if the device cannot be opened at first the thread of the port waits for ever (`C91_blocked`).
  Theorems: `C91_client`, `C91_master_partial`, `C91_failures`, `C91_inhibited`, `C91_again`, `C91_lost`, `C91_start`, `C91_blocked`.
* **C92 The client writes the values of its command line** (partial). Proved: division into words, for single spaces (`C92_words`); values and omissions for integer types (`C92_values_partial`, `C92_write_partial`), BOOLs without omissions (`C92_bools_partial`), texts (`C92_text`, `C92_write_text`), refusals (`C92_refused`), read (`C92_read_partial`). Fails: every command stores the end of its list of words outside of the block (`C92_overflow`); a second space counts as a word and is taken for 0 (`C92_spaces`); BOOLs given as ~ are cleared when the BOOLs are not whole bytes (`C92_bools_left_out`); a negative number for an unsigned type of 64 bits is left out if another item is (`C92_negative`); the function returns 0 for every write, also a refused one (`C92_write_partial`). Missing: REAL and LREAL values, custom types.
  Theorems: `C92_words`, `C92_spaces`, `C92_overflow`, `C92_values_partial`, `C92_write_partial`, `C92_bools_partial`, `C92_text`, `C92_write_text`, `C92_refused`, `C92_read_partial`, `C92_bools_left_out`, `C92_negative`.
* **C93 The client sends the override, operation or deletion that was asked for** (partial). Proved: operation and operands when all are given (`C93_operands_partial`). Fails: items given as ~ are overridden with 0 (`C93_override`); for an unknown name the override of the tag with index 0 is changed (`C93_unknown`); increment and decrement without a value do nothing and report success (`C93_inc`); xnor is sent as xor (`C93_xnor`); an operand after one left out is lost (`C93_operand_lost`); a name that is too long deletes the tag whose index is in memory (`C93_delete`).
  Theorems: `C93_override`, `C93_unknown`, `C93_inc`, `C93_operands_partial`, `C93_xnor`, `C93_operand_lost`, `C93_delete`.
* **C94 The client runs each line of a file of commands once** (partial). Proved for files whose last line has no newline (`C94_once_partial`). Fails: with a newline at the end the last line is run twice (`C94_twice`), for example an increment; an empty last line reads before the array (`C94_blank`); an empty file runs what is in memory (`C94_empty`).
  Theorems: `C94_once_partial`, `C94_twice`, `C94_blank`, `C94_empty`.
* **C95 The lists of the client show every tag** (partial). Proved: the list of all tags, the list from a number on and the parts (`C95_all`, `C95_from`, `C95_next_partial`). Fails: if the index of the last tag is a multiple of the size of the parts, the last tag is in none of them (`C95_last`).
  Theorems: `C95_all`, `C95_from`, `C95_next_partial`, `C95_last`.
* **C96 The text files of the logger keep the history** (partial). Proved for BOOL and the integer types (`C96_file_partial`), with the reading of lines (`C96_readable`) and rotation (`C96_rotation`). Fails: if a file cannot be opened, the next record is printed to no file (`C96_no_file`); a CHAR that is a newline breaks its line (`C96_char`). Missing: TIME, REAL, LREAL.
  Theorems: `C96_readable`, `C96_file_partial`, `C96_rotation`, `C96_no_file`, `C96_char`.
* **C97 The SQLite database of the logger keeps the history** (partial). Proved: rows and numbers of tags with names up to 205 characters (`C97_tag`), records of BOOL and the integer types (`C97_data_partial`, `C97_run_partial`), the purge with the time that is meant (`C97_purge`). Fails: the logger calls the purge without the time, and the whole history may be deleted (`C97_purge_all`); longer names are not stored and their records go to a row number from memory (`C97_long`); letters of type CHAR are not recorded (`C97_char`); the type stored is 2 for every tag (`C97_tag`). Missing: TIME, REAL, LREAL; SQLite is modelled for the statements of the plugin only.
  Theorems: `C97_tag`, `C97_long`, `C97_data_partial`, `C97_run_partial`, `C97_purge`, `C97_purge_all`, `C97_char`.
* **C98 Events of the command-line client keep their numbers** (partial). Proved: arrival (`C98_number`, when the server gives different identifiers), deletion of a number that was given (`C98_delete`), the request with values of the integer types but TIME (`C98_sent_partial`, `C98_value_partial`). Fails: a place is never used again, so after 64 additions every other is refused (`C98_full`); number 65 reads outside the table (`C98_outside`); a number never given asks the server to delete event 0 of tag 0 (`C98_never`); half of a TIME comes from memory (`C98_time`); too large numbers are cut without a message (`C98_wraps`). Missing: REAL and LREAL, whose text is an input.
  Theorems: `C98_number`, `C98_delete`, `C98_value_partial`, `C98_sent_partial`, `C98_full`, `C98_outside`, `C98_never`, `C98_time`, `C98_wraps`.
* **C99 The command line of the server counts before its configuration file, and that before the defaults** (partial). Proved for the socket and the list of modules (`C99_text`, `C99_excluded`), ports from 1 to 65535 (`C99_port_partial`), addresses but 0.0.0.0 (`C99_address_partial`), buffers (`C99_buffers`). Fails: 0.0.0.0 on the command line does not count when the file has an address (`C99_zero`); with a name such as localhost the server listens on all addresses (`C99_address`); 73313 is taken for port 7777 (`C99_wraps`); a path of 108 bytes or more has no end (`C99_path`); -T is not accepted though --logtopics is (`C99_topics`). Missing: abbreviations of long options, several flags in one word.
  Theorems: `C99_text`, `C99_port_partial`, `C99_address_partial`, `C99_buffers`, `C99_defined`, `C99_excluded`, `C99_zero`, `C99_address`, `C99_wraps`, `C99_path`, `C99_topics`.
* **C100 The configuration of controller tags is kept or refused** (partial). Proved: what is accepted is kept (`C100_kept_partial`) and wrong places are refused (`C100_refused_partial`) for numbers of 16 bits in the map and element sizes up to 65536; use of an accepted map for reading stays in memory for all arguments (`C100_safe`). Fails: 65536 in a map is taken for 0 (`C100_truncated`); a map that names a byte twice and a negative count are accepted (`C100_twice`); a name that is neither text nor number is passed to strdup as NULL (`C100_name`).
  Theorems: `C100_kept_partial`, `C100_refused_partial`, `C100_safe`, `C100_truncated`, `C100_twice`, `C100_name`.
* **C101 Each process runs as the user and group its entry asks for** (partial). Proved: the user, with a master that is root, for numbers below 2^31 (`C101_user`), the group of children that stay root (`C101_group_partial`), the check of the file (`C101_trusted`). Fails: `setuid` comes before `setgid`, so that a child with any other user keeps the group of root (`C101_group_lost`); a child whose user is not known is started with the identity of the master, even root, contrary to the comment in the source (`C101_unknown`); so is each child of a master that is not root (`C101_not_root`). Supplementary groups are not modelled; the code does not change them. The file could be replaced between the check and its use: not modelled.
  Theorems: `C101_user`, `C101_group_partial`, `C101_trusted`, `C101_group_lost`, `C101_unknown`, `C101_not_root`.
* **C102 Each process gets the arguments of its entry** (partial). Proved for entries with arguments (`C102_args_partial`), and for the list of one process without environment (`C102_print_partial`). Fails: without arguments the array has no end and `execvp` reads outside of it (`C102_none`); the list reads outside of the arguments of a process that has fewer than the one before (`C102_print_outside`), shows none if it has as many (`C102_print_lost`), and reads freed memory if a process has an environment (`C102_print_env`).
  Theorems: `C102_args_partial`, `C102_none`, `C102_print_partial`, `C102_print_outside`, `C102_print_lost`, `C102_print_env`.
* **C103 A configured script is what its entry says** (partial). Proved for what is accepted (`C103_kept`, `C103_all`), taken names (`C103_refused`), threads (`C103_thread`) and files (`C103_file`). Fails: a trigger without tag or without type is not refused, NULL is passed to `strdup` or `strcasecmp` (`C103_no_tag`, `C103_no_type`); a script without file is read from the standard input of the module, which waits for it (`C103_stdin`).
  Theorems: `C103_kept`, `C103_all`, `C103_refused`, `C103_thread`, `C103_file`, `C103_no_tag`, `C103_no_type`, `C103_stdin`.
* **C104 Each trigger of a script gets exactly one event** (partial). Proved: at most one event in all executions (`C104_once`), exactly one if the server never refuses an event for a tag it has (`C104_set_partial`), end of the loop (`C104_ends`). Fails: a trigger whose event is refused once is never tried again although its tag is known, and the module reports success (`C104_lost`); for tags of type TIME half of the value is left over from before (`C104_time`); values outside of the type of the tag are converted, which is undefined (`C104_range`). Values with a fraction and the bytes of REAL and LREAL are not modelled.
  Theorems: `C104_once`, `C104_set_partial`, `C104_ends`, `C104_lost`, `C104_time`, `C104_range`.
* **C105 Groups are read into and written from memory of their size** (partial). Proved for groups of four bytes and more (`C105_read_partial`), too little memory (`C105_refused`), sizes and writing for all groups (`C105_size`, `C105_write`). Fails: the request is put together in the memory of the caller, so that a group of one to three bytes, such as one BYTE, is not read into memory of its size without a write behind the end (`C105_small`), the bytes behind it change (`C105_behind`), and a refused request changes the memory (`C105_failed`); a negative count gives a message of almost 2^64 bytes (`C105_negative`). Clients with another byte order are not modelled here.
  Theorems: `C105_size`, `C105_read_partial`, `C105_refused`, `C105_write`, `C105_small`, `C105_behind`, `C105_failed`, `C105_negative`.
* **C106 Reading back an override gives the actual data and the mask** (partial). Proved for handles at the begin of a tag, over all histories of data and override requests on a server without mappings (`C106_actual_partial`), and for refused requests (`C106_refused`). Fails: a handle that begins elsewhere gets the bytes from the begin of the tag (`C106_begin`); the bit of a handle is not looked at, so that bits come back shifted and the last ones are lost (`C106_bits`, `C106_bits_shown`); overrides of BOOL tags are neither accepted nor given back (`C106_bool`); a tag without override ends the server with a NULL mask (`C106_none`); at most 2044 bytes are given back (`C106_limit`).
  Theorems: `C106_actual_partial`, `C106_refused`, `C106_begin`, `C106_bits`, `C106_bits_shown`, `C106_bool`, `C106_none`, `C106_limit`.
* **C107 Each triggered script has its first run** (partial). Proved for all interleavings: what is put in, once and in order, and all of it when the main thread goes on (`C107_order`); as long as the queue is not full it can go on (`C107_goes_on_partial`). Fails: with a full queue the main thread sleeps with the lock and then waits for itself, after which no thread can do anything (`C107_stuck`, with a history that leads there in `C107_stuck_shown`); if no worker has taken a script yet a full queue is not noticed and the first script is overwritten (`C107_lost`).
  Theorems: `C107_order`, `C107_goes_on_partial`, `C107_stuck`, `C107_stuck_shown`, `C107_lost`.
* **C108 The MQTT configuration is kept and used** (partial). Proved for all configurations: accepted calls add one entry each, as given and in order (`C108_sub`, `C108_pub`, `C108_all`), complete ones are accepted, missing topics and triggers refused, and publications ask for what their entry says (`C108_publish`). Fails: a topic, tag, trigger tag or trigger value that is neither text nor number is copied from NULL (`C108_crash`); a quality of service out of range is accepted or wraps (`C108_qos`), that of a subscription is never used (`C108_sub_qos`); user and password are never given to the broker (`C108_login`); an address above 63 characters is cut (`C108_address_cut`).
  Theorems: `C108_sub`, `C108_pub`, `C108_all`, `C108_accepted`, `C108_refused`, `C108_publish`, `C108_crash`, `C108_qos`, `C108_sub_qos`, `C108_login`, `C108_address_partial`, `C108_address_cut`.
* **C109 Connections of the Modbus TCP server are kept apart** (partial). Proved by refinement for all histories and all ways of answering: as long as no connection fails, what is sent is what a server sends that has separate, initially empty bytes for each connection (`C109_apart_partial`), and everything such a server serves is served (`C109_served_partial`, which needs that `maxfd` stays right). Fails: an error of `read` on one connection ends the service of all for good (`C109_down`, `C109_down_shown`), since `mb_run_port` then waits at the barrier each time round; a descriptor from 1024 on is written outside the set (`C109_many`); buffers of closed connections are never given back (`C109_leak`).
  Theorems: `C109_apart_partial`, `C109_served_partial`, `C109_down`, `C109_down_shown`, `C109_many`, `C109_leak`.
* **C110 Axes and buttons of a joystick drive their tags** (partial). Proved for all configurations and events: buttons (`C110_button`), which tag an axis writes (`C110_axis_partial`), what writes nothing (`C110_others`), what is accepted (`C110_accepted`). Fails: the scale is added instead of multiplied (`C110_scale`; by `C110_axis_partial` the value is right only where sum and product agree); a large offset overflows or is changed (`C110_offset`). Floating point numbers are integers in the model.
  Theorems: `C110_button`, `C110_axis_partial`, `C110_others`, `C110_accepted`, `C110_scale`, `C110_offset`.
* **C111 Overrides and atomic operations from Lua use what they are given** (partial). Proved for all reachable servers and values of the right shape: what the value has goes where it belongs (`C111_add_partial`, `C111_atomic_partial`, on top of C68); if the conversion gives an error nothing is sent (`C111_refused`, `C111_error`). Fails: elements that are left out are overridden with what `malloc` left (`C111_left_out`); with two arguments `atomic_op` takes the value off the stack and converts the name of the tag instead (`C111_two`), with one nothing is left to convert (`C111_one`); an operation above 16 bits becomes another one (`C111_wraps`).
  Theorems: `C111_add_partial`, `C111_atomic_partial`, `C111_count`, `C111_left_out`, `C111_two`, `C111_one`, `C111_wraps`, `C111_refused`, `C111_error`.

<!-- end of results -->

## 6. Wrong programs

In a scratch copy, definitions of the model were edited the way a programmer might get the C
wrong (a bound off by one, a forgotten update, a test of the wrong variable), and everything was
rebuilt.  `seeded/LOG.jsonl` has one line for each: the definition, the edit, the claim it breaks,
the theorems that failed, and what was tightened when none did.  Edits that fail only in a helper
lemma are logged with that lemma: the property theorem rests on it and does not compile either.

## 7. Plan per property (as first written)

`INV` = invariant by induction over request histories; `REF` = refinement to an
abstract object; `LAW` = algebraic law over all inputs; `NEG` = the code violates the
property; negation is proved on a witness next to a `_partial` theorem.

| id | model | method |
|---|---|---|
| C01 | name index as array with bisection, insertion and removal by block move | REF to finite map name ↦ index; INV: strictly sorted, agrees with tag table |
| C02 | tag table, `tagnextindex` | INV over all histories |
| C03 | `tag_read`/`tag_write` | LAW |
| C04 | same, masked write | LAW (frame) |
| C05 | same with signed 32-bit arithmetic and `ub` | LAW for non-negative offsets; NEG for negative offset |
| C06 | `tag_mask_write` | LAW bitwise |
| C07 | `tag_add`, allocator junk | LAW; NEG for growth |
| C08 | `tag_add` | LAW |
| C09 | `tag_add`, `msg_tag_add` | LAW: state unchanged |
| C10 | system tags | INV |
| C11 | `_validate_name` | LAW: iff with independent grammar |
| C12 | `module_unregister` | LAW over all states satisfying the invariant |
| C13 | message handlers | LAW for write/mask/atomic; NEG for group write, override |
| C14 | overrides | LAW bitwise |
| C15 | override counters | INV partial; NEG |
| C16 | `override_add` | LAW partial; NEG (BOOL, junk) |
| C17 | `cdt_create` | LAW/INV |
| C18 | `type_size` | LAW by induction on member lists, against an independent layout spec |
| C19 | `type_size` vs `dax_get_typesize` | LAW |
| C20 | serialise/parse | LAW round trip |
| C21 | `_parse_next_member` | LAW partial; NEG |
| C22 | `_dax_tag_handle` | LAW partial; NEG |
| C23 | `dax_cdt_iter` | LAW |
| C24 | BOOL shifting | LAW; NEG for size |
| C25 | chunk loops | LAW |
| C26–C30 | `event_check` and per-kind hit functions | LAW / INV over write histories; NEG where integer widths are wrong |
| C31–C33 | event list surgery | INV partial; NEG |
| C34–C36 | `map_add`/`map_check`/`map_del` | LAW partial; NEG |
| C37–C39 | groups | LAW; NEG |
| C40 | ring buffer | REF to FIFO while no wrapped growth; NEG |
| C41–C42 | atomic ops | LAW partial; NEG |
| C43 | special tag hooks | LAW |
| C44–C45 | stream reassembly | LAW over fragmentations; NEG |
| C46 | encoders/decoders | LAW round trip |
| C47 | client event queue | REF to bounded FIFO |
| C48 | tag cache | pointer-level list, REF to list |
| C49 | event callbacks | INV |
| C50 | name tables | LAW |
| C51 | conversions | LAW |
| C52 | attributes | LAW |
| C53 | CRC-16 | LAW by linearity |
| C54–C56 | modbus | LAW; NEG |
| C57–C58 | process master | INV; NEG |
| C59 | module list | REF to finite map |
| C60 | retention | LAW partial; NEG |
| C61 | signals of the process master | INV |
| C62 | values as text | LAW |
| C63 | slave writes | LAW partial; NEG |
| C64–C65 | exchanges of the Modbus master | LAW, INV over tries; NEG |
| C66 | master and slave together | composition of C55, C63, C64 |
| C67 | `dax_fqn` | the search stops at the member the position is in (induction over the members), induction over the path; composition with C21 |
| C68 | conversion to and from Lua values | induction over the members and over the nesting; items written one after another keep what lies elsewhere (a specification of single bits); conversions of integers to doubles and back are exact below 2^53 |
| C69 | reading and writing tags from Lua | composition of C68, C25/C24 and C03 (memory refinement); conversions before a transfer keep the type cache faithful (induction over nesting) |
| C70 | the status tag of a module | composition of C20/C21 (handles), C24/C25 (transfers), the rights to the status tag and C28 (SET events); names, types and rights are shown to be unchanged by writes |
| C71 | one execution of a script | acceptance of reads by induction over the pieces; induction over the list of globals with disjoint targets |
| C72 | the queue of triggered scripts | invariant relating the ring to a list of waiting scripts, induction over interleavings |
| C73 | the table of scripts | invariant of the array, induction over the configuration |
| C74 | the switch of a script | simulation of the module by a switch, induction over histories; periodic orbit for the negative part |
| C75 | intervals | integer arithmetic |
| C76 | values of a history | invariant over events: what is compared with is the last recorded value, what is pending the last one seen |
| C77 | gaps and order of a history | invariant: all recorded times are at most that of the last event |
| C78 | begin and end of a history | induction on the distance to the next multiple of the interval |
| C79 | topics of MQTT | induction over the levels of the filter; comparison of a level by induction over its characters |
| C80 | arrays of the MQTT module | invariant of count and allocated size |
| C81 | recovery of the MQTT module | invariant between turns; induction on the distance to the next attempt; stability of what is lost |
| C82 | payloads | byte by byte |
| C83 | data of controllers | induction over the elements with the buffer described byte by byte; bits likewise; maps of bytes as injections |
| C84 | queue of tags of controllers | the invariant of C72; stability of the kept lock |
| C85 | topics of the log | characterisation of the pieces of a text; bits of the union |
| C86 | services of the log | induction over the services and over the descriptions |
| C87 | configuration of the Modbus module | simulation of the script by its abstract reading, call by call |
| C88 | pool of connections of the Modbus client | invariant over the steps; negations on runs and on all runs |
| C89 | events of the Modbus master | invariant relating mode and events of each command over the rounds |
| C90 | command tag of a Modbus port | places of the members from the type; induction over the retries; negations for all states |
| C91 | schedule of a Modbus port | induction over the commands and rounds against counting of rounds |
| C92 | lines, write and read of the client | induction over words and values against the numbers written; the frame from C24 and C25 |
| C93 | overrides, operations, deletion by the client | the operands as in C92; negations in general |
| C94 | file of commands | induction over the lines |
| C95 | lists of tags | induction over the indices; divisibility for the negation |
| C96 | text files of the logger | induction over the calls against a grammar of lines that is shown to be unambiguous |
| C97 | SQLite database of the logger | reading of the statements that were printed; induction over the calls |
| C98 | events of the command-line client | invariant of the table by induction over the commands |
| C99 | configuration of the server | grammar of command lines; induction over it and over the results of `getopt_long` |
| C100 | configuration of controller tags | induction over the places of the map; use in C83 |
| C101 | identity of the processes of the master | relation of the entry to the number it asks for; cases on the identity |
| C102 | arguments of the processes of the master | grammar of texts with spaces; induction over it |
| C103 | configuration of Lua scripts | relation of arguments and scripts; induction over the calls |
| C104 | triggers of Lua scripts | invariant of each trigger over all rounds and answers |
| C105 | groups and the memory of the caller | memory as a list of bytes with its end |
| C106 | reading back overrides through the library | view of written data and installed masks; memory of the caller |
| C107 | first run of triggered scripts | steps of the threads under the lock |
| C108 | configuration of the MQTT module | entries as given, in order |
| C109 | connections of the Modbus server | refinement of a map of connections |
| C110 | joystick | last call for each number, transfer function |
| C111 | overrides and atomic operations from Lua | elements of the value, as in C68 |
