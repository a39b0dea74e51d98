{"id": "C01", "title": "Variable-length integers survive a round trip", "statement": "Whatever 64-bit value is written with write_vint into a buffer large enough for it, read_vint on the produced bytes, followed by any further bytes, returns the same value and reports exactly the number of bytes that were written.", "quantifier": "all 64-bit values, all buffer sizes large enough, all trailing bytes", "why_tests_cant": "2^64 values times every buffer size and trailing content; tests sample a handful of values", "anchors": ["src/detail/buffer.cpp:read_vint", "src/detail/buffer.cpp:write_vint"]}
{"id": "C02", "title": "Integer encoder stays inside its buffer and fails exactly when it must", "statement": "write_vint uses at most the s bytes it was given, returns 0 exactly when s is smaller than the number of 7-bit groups of the value (1 for value 0, at most 10), and otherwise returns exactly that number of groups, independent of s.", "quantifier": "all 64-bit values and all buffer sizes s", "why_tests_cant": "the boundary between fitting and not fitting moves with the value; it must hold for every (value, size) pair", "anchors": ["src/detail/buffer.cpp:write_vint"]}
{"id": "C03", "title": "Integer decoder is self-delimiting and never looks past its input", "statement": "read_vint's answer depends only on the bytes up to and including the first byte without continuation bit inside the s bytes given; if there is no such byte it reports failure, in particular every proper prefix of a written integer is reported as incomplete, and no written integer is a proper prefix of another one.", "quantifier": "all byte strings and all sizes s, including malformed and truncated ones", "why_tests_cant": "quantifies over every malformed and truncated input, not only encoder output", "anchors": ["src/detail/buffer.cpp:read_vint", "src/detail/buffer.cpp:write_vint"]}
{"id": "C04", "title": "Dynamic-mode buffer manager is a double-ended queue of blocks", "statement": "In dynamic mode, after any sequence of push/pop/merge calls at either end, front() and back() show exactly the blocks, bytes and consumed counts that a plain double-ended queue would show after the same calls; every call returns the same success or limit error.", "quantifier": "all operation sequences, block sizes, contents and limits", "why_tests_cant": "unbounded histories of six operations; errors only show after particular orders of merges and partial pops", "anchors": ["src/detail/buffer.cpp:dynamic_push_back", "src/detail/buffer.cpp:dynamic_push_front", "src/detail/buffer.cpp:dynamic_pop_back", "src/detail/buffer.cpp:dynamic_pop_front", "src/detail/buffer.cpp:dynamic_merge_back", "src/detail/buffer.cpp:dynamic_merge_front"]}
{"id": "C05", "title": "Static-mode blocks stay inside the ring and never overlap", "statement": "In static mode, after any sequence of push/pop/merge calls at either end, every live block (its header and all its payload bytes) lies inside the one allocated area, no two live blocks share a byte, and no call ever writes outside the area or into another live block.", "quantifier": "all operation sequences, block sizes, ring sizes and block-count limits", "why_tests_cant": "wrap-around layouts depend on the whole history; the number of layouts is unbounded", "anchors": ["src/detail/buffer.cpp:static_push_back", "src/detail/buffer.cpp:static_push_front", "src/detail/buffer.cpp:static_pop_back", "src/detail/buffer.cpp:static_pop_front", "src/detail/buffer.cpp:static_merge_back", "src/detail/buffer.cpp:static_merge_front"]}
{"id": "C06", "title": "Static-mode buffer manager behaves like the same double-ended queue", "statement": "In static mode, every successful call has the effect the dynamic mode has: contents and order of blocks seen through front()/back() and through draining the manager equal those of a plain double-ended queue driven by the calls that succeeded; calls that report a limit error change nothing.", "quantifier": "all operation sequences, block sizes, contents, ring sizes and limits", "why_tests_cant": "a clobbered byte only shows when that block is later drained after some particular wrap-around history", "anchors": ["src/detail/buffer.cpp:static_push_back", "src/detail/buffer.cpp:static_merge_back", "src/detail/buffer.cpp:static_merge_front", "src/detail/buffer.cpp:static_pop_front", "src/detail/buffer.cpp:set_mode"]}
{"id": "C07", "title": "Cost counters are exact and limits are never exceeded", "statement": "After any sequence of calls the reported cost_number is the number of blocks held and cost_size is the number of unconsumed payload bytes held, and neither exceeds a configured non-zero limit; a push is refused for a limit reason only if it would have exceeded a limit.", "quantifier": "all operation sequences, both modes, all limits", "why_tests_cant": "drift of a counter is a property of whole histories", "anchors": ["src/detail/buffer.cpp:push_back", "src/detail/buffer.cpp:push_front", "src/detail/buffer.cpp:pop_back", "src/detail/buffer.cpp:pop_front", "src/detail/buffer.cpp:merge_back", "src/detail/buffer.cpp:merge_front", "src/detail/buffer.cpp:limit"]}
{"id": "C08", "title": "Merging appends to one block and keeps its unread bytes", "statement": "merge_back appends the new bytes to the last block and merge_front appends them to the end of the first block; all previously stored bytes of every block, the block boundaries of all other blocks and the consumed prefix stay the same, wherever the block had to be moved to.", "quantifier": "all states reachable by any call sequence, all merge sizes, both modes", "why_tests_cant": "the block may be extended in place or relocated to either end of the ring depending on history", "anchors": ["src/detail/buffer.cpp:static_merge_back", "src/detail/buffer.cpp:static_merge_front", "src/detail/buffer.cpp:dynamic_merge_back", "src/detail/buffer.cpp:dynamic_merge_front"]}
{"id": "C09", "title": "A drained static ring recovers its full capacity", "statement": "Whenever a static-mode manager becomes empty it accepts every push that a freshly configured manager accepts, so capacity is never lost to fragmentation over any history.", "quantifier": "all histories that leave the manager empty, all push sizes", "why_tests_cant": "capacity leaks accumulate over unbounded histories", "anchors": ["src/detail/buffer.cpp:static_pop_front", "src/detail/buffer.cpp:static_pop_back", "src/detail/buffer.cpp:static_push_back", "src/detail/buffer.cpp:static_push_front"]}
{"id": "C10", "title": "A successful push provides all the bytes asked for", "statement": "If a dynamic-mode push of s bytes reports success then at least s writable bytes were allocated for it.", "quantifier": "all sizes s of the 64-bit size type", "why_tests_cant": "only fails for sizes close to 2^64 where the size computation wraps; no test allocates such sizes", "anchors": ["src/detail/buffer.cpp:malloc", "src/detail/buffer.cpp:padding_size", "src/detail/buffer.cpp:full_size", "src/detail/buffer.cpp:push_back"]}
{"id": "C11", "title": "Shared-memory ring geometry fits the memory it was given", "statement": "For every memory length accepted by mem_init, all node heads and all node data lie inside that memory and do not overlap each other or the channel head, and the number of nodes reserved for a message of n bytes is enough to hold it and its block head but not more than one node too many.", "quantifier": "all memory lengths and message lengths", "why_tests_cant": "address arithmetic over all lengths including odd remainders and wrap-around blocks", "anchors": ["src/channel_mem.cpp:mem_init", "src/channel_mem.cpp:mem_calc_node_num", "src/channel_mem.cpp:mem_get_block_head", "src/channel_mem.cpp:mem_get_node_head", "src/channel_mem.cpp:mem_next_index"]}
{"id": "C12", "title": "Shared-memory channel is an exact FIFO when used sequentially", "statement": "For any sequence of mem_send and mem_recv calls on a freshly initialised channel, messages come out exactly once, in the order in which their sends reported success, with exactly the bytes that were sent, at every wrap-around position.", "quantifier": "all call sequences, message contents and sizes, ring sizes, receive buffer sizes", "why_tests_cant": "cursor positions and wrap-around splits depend on the entire history of sizes", "anchors": ["src/channel_mem.cpp:mem_send", "src/channel_mem.cpp:mem_send_real", "src/channel_mem.cpp:mem_recv"]}
{"id": "C13", "title": "A refused shared-memory send has no effect and is refused only for lack of room", "statement": "When mem_send reports a size or buffer-limit error nothing changes for the receiver; it reports success for a non-empty message exactly when the free nodes, excluding the protected ones, can hold the message.", "quantifier": "all reachable channel states and message sizes", "why_tests_cant": "boundary between full and not full at every cursor position and every protected-node configuration", "anchors": ["src/channel_mem.cpp:mem_send_real", "src/channel_mem.cpp:mem_get_available_node_count"]}
{"id": "C14", "title": "Too small a receive buffer loses nothing", "statement": "When mem_recv's buffer is smaller than the next message it reports a buffer-limit error together with the size needed, and a later mem_recv with that size returns exactly that message.", "quantifier": "all reachable channel states and buffer sizes", "why_tests_cant": "must hold for every buffer size below the message size at every ring position", "anchors": ["src/channel_mem.cpp:mem_recv"]}
{"id": "C15", "title": "Concurrent senders never corrupt, lose, duplicate or reorder messages", "statement": "With any number of concurrent senders and one receiver, under every interleaving of their individual memory accesses, the receiver obtains only messages that were really sent, each once and with intact bytes, in the order in which the senders reserved their space; a message whose sender has finished is eventually received.", "quantifier": "all numbers of senders, all interleavings, all message contents and sizes, all ring sizes", "why_tests_cant": "the number of interleavings is unbounded and failures need a precise schedule", "anchors": ["src/channel_mem.cpp:mem_send_real", "src/channel_mem.cpp:mem_recv", "src/channel_mem.cpp:mem_fetch_operation_seq"]}
{"id": "C16", "title": "A sender that dies in the middle of a send does not harm other senders", "statement": "If a sender stops forever at any point inside mem_send, its half-written message is never delivered, and after the write timeout every message of every other sender is still delivered intact and in order.", "quantifier": "all crash points, all interleavings, all stale contents of the ring", "why_tests_cant": "needs every crash point combined with every schedule of the survivors", "anchors": ["src/channel_mem.cpp:mem_send_real", "src/channel_mem.cpp:mem_recv"]}
{"id": "C17", "title": "The receiver gives up on a message only after the configured write timeout", "statement": "mem_recv abandons an unfinished message only if it has already observed that same message unfinished in an earlier call whose clock value is more than the configured timeout before the current one; a finished message is never abandoned.", "quantifier": "all histories of calls and clock values", "why_tests_cant": "depends on the interplay of the remembered time with every earlier outcome", "anchors": ["src/channel_mem.cpp:mem_recv", "src/channel_mem.cpp:mem_configure_set_write_timeout"]}
{"id": "C18", "title": "Attaching accepts exactly compatible channels", "statement": "mem_attach succeeds on any memory prepared by mem_init of the same build with the same length, and fails with the specific error on memory that is too small or carries another magic, protocol version, alignment or word size, whatever else the memory contains.", "quantifier": "all memory contents and lengths", "why_tests_cant": "quantifies over arbitrary memory contents", "anchors": ["src/channel_mem.cpp:mem_attach", "src/channel_mem.cpp:mem_init"]}
{"id": "C19", "title": "Receiving from damaged shared memory is safe", "statement": "Whatever the node heads, flags, sequence numbers, block heads and data in the ring contain, mem_recv with in-range cursors terminates, touches only addresses inside the channel, writes at most len bytes to the caller's buffer, leaves the cursor in range, leaves no start or written mark on the nodes it passes, and reports success only for bytes whose checksum matches the stored one.", "quantifier": "all memory contents, cursor positions and buffer sizes", "why_tests_cant": "arbitrary corruption by a crashed or hostile peer cannot be enumerated", "anchors": ["src/channel_mem.cpp:mem_recv"]}
{"id": "C20", "title": "Stream framing does not depend on how bytes are chunked", "statement": "However the byte stream carrying a sequence of framed messages is split into reads (as long as each read fits the buffer offered by the allocation callback), the receive callback is invoked once per message, in order, with exactly the message bytes.", "quantifier": "all message lists within the limits, all splits of the byte stream", "why_tests_cant": "the number of ways to split a stream is exponential; errors hide at header boundaries and at the small/large switch", "anchors": ["src/channel_io_stream.cpp:io_stream_on_recv_alloc_fn", "src/channel_io_stream.cpp:io_stream_on_recv_read_fn"]}
{"id": "C21", "title": "What one stream end sends is what the other end receives", "statement": "For any sequence of io_stream_send calls accepted on a connection, any timing of write completions (hence any batching of queued messages into merged writes) and any chunking on the receiving side, the receiver's callbacks get exactly the accepted messages in order.", "quantifier": "all message lists, all interleavings of sends and write completions, all chunkings, both buffer modes", "why_tests_cant": "batching depends on timing, sizes and history", "anchors": ["src/channel_io_stream.cpp:io_stream_send", "src/channel_io_stream.cpp:io_stream_try_write", "src/channel_io_stream.cpp:io_stream_on_written_fn", "src/channel_io_stream.cpp:io_stream_on_recv_read_fn"]}
{"id": "C22", "title": "No byte stream can make the stream receiver read outside what it received", "statement": "For every sequence of received bytes, honest or not, the frame decoder only reads bytes it has received, terminates on every read, and never asks the kernel to write outside the offered buffer.", "quantifier": "all byte streams and chunkings, including hostile ones", "why_tests_cant": "hostile inputs range over all byte strings; the failing ones encode lengths near 2^64", "anchors": ["src/channel_io_stream.cpp:io_stream_on_recv_read_fn", "src/detail/buffer.cpp:read_vint"]}
{"id": "C23", "title": "A damaged frame is never delivered as good", "statement": "The receive callback reports success only for payloads whose checksum equals the checksum carried by the frame and whose length does not exceed the configured receive limit; more than the configured number of checksum (or size) failures disconnects the peer.", "quantifier": "all byte streams, chunkings and limits", "why_tests_cant": "arbitrary damage at arbitrary positions", "anchors": ["src/channel_io_stream.cpp:io_stream_on_recv_read_fn"]}
{"id": "C24", "title": "Every accepted stream message gets exactly one completion", "statement": "Every message accepted by io_stream_send is reported by exactly one write callback carrying its own bytes, in order of acceptance, whether it was written alone, merged with others, or cancelled by closing.", "quantifier": "all interleavings of sends, write completions and close requests", "why_tests_cant": "depends on how messages were merged and when closing started", "anchors": ["src/channel_io_stream.cpp:io_stream_send", "src/channel_io_stream.cpp:io_stream_try_write", "src/channel_io_stream.cpp:io_stream_on_written_fn"]}
{"id": "C25", "title": "Merging queued stream messages can always put the merged block back", "statement": "When queued messages are merged before writing, the block taken out and the block put back always fit: the merged block can be stored in both buffer modes whatever the ring layout is, so no queued message is dropped by merging.", "quantifier": "all ring layouts reachable by any history, all message sizes", "why_tests_cant": "in static mode it depends on the exact wrap-around layout", "anchors": ["src/channel_io_stream.cpp:io_stream_try_write", "src/detail/buffer.cpp:static_push_front"]}
{"id": "C26", "title": "Address text round trip", "statement": "Formatting a scheme, host and positive port into an address and parsing that address gives back the same scheme, host and port.", "quantifier": "all schemes without ':' or '/', all hosts, all positive int ports", "why_tests_cant": "all strings; hosts may contain colons, slashes or digits", "anchors": ["src/channel_utility.cpp:make_address"]}
{"id": "C27", "title": "Address classes are consistent", "statement": "Every non-empty address is either simplex or duplex and not both; a process-local address is host-local; exactly mem and shm addresses (in any letter case) are simplex.", "quantifier": "all strings", "why_tests_cant": "all strings in all letter cases", "anchors": ["src/channel_utility.cpp:is_duplex_address", "src/channel_utility.cpp:is_simplex_address", "src/channel_utility.cpp:is_local_host_address", "src/channel_utility.cpp:is_local_process_address"]}
{"id": "C28", "title": "A subnet contains exactly its id interval", "statement": "A subnet with prefix p and mask m contains exactly the non-zero ids that agree with p above the lowest m bits, reported minimum and maximum ids are the ends of that interval, and this agrees between all ways the API offers to ask.", "quantifier": "all 64-bit prefixes and ids and all mask widths 0..63", "why_tests_cant": "2^64 ids times 64 masks; wide masks go wrong only from 31 bits on", "anchors": ["src/atbus_endpoint.cpp:endpoint_subnet_range", "src/atbus_endpoint.cpp:contain", "src/atbus_endpoint.cpp:get_children_min_id", "src/atbus_endpoint.cpp:get_children_max_id"]}
{"id": "C29", "title": "Normalising a subnet list keeps the id set", "statement": "Merging a list of subnets yields a list ordered by id that covers exactly the ids covered before, whatever the input order, nesting and duplicates, with no two entries that overlap.", "quantifier": "all finite lists of subnets", "why_tests_cant": "all orders and nestings of lists of any length", "anchors": ["src/atbus_endpoint.cpp:merge_subnets", "src/atbus_endpoint.cpp:operator<"]}
{"id": "C30", "title": "Subnet containment test between nodes is sound and complete", "statement": "The check whether one node's subnets contain another node's subnets answers yes exactly when every id of the second is an id of the first.", "quantifier": "all lists of subnets", "why_tests_cant": "all combinations of lists", "anchors": ["src/atbus_endpoint.cpp:contain", "src/atbus_endpoint.cpp:search"]}
{"id": "C31", "title": "Route lookup finds the owner of every id", "statement": "For every id covered by a directly connected non-parent endpoint, route lookup returns that endpoint, and for every other id it returns nothing.", "quantifier": "all ids, all route tables reachable by any history of registrations and removals", "why_tests_cant": "table contents depend on registration history and on nesting of subnets", "anchors": ["src/atbus_node.cpp:find_route", "src/atbus_node.cpp:get_endpoint"]}
{"id": "C32", "title": "Two endpoints with overlapping subnets are never both accepted", "statement": "When an endpoint whose subnets overlap those of an already registered non-parent endpoint is added, it is refused and the table is unchanged; it is accepted if there is no overlap.", "quantifier": "all tables reachable by any history, all subnet lists", "why_tests_cant": "overlap patterns at both ends of ranges, nested ranges, ranges that start at id 0", "anchors": ["src/atbus_node.cpp:check_conflict", "src/atbus_node.cpp:insert_child"]}
{"id": "C33", "title": "The route table mirrors the set of registered endpoints", "statement": "After any history of adding and removing endpoints, the table lists exactly the subnets of the endpoints currently registered, sorted and each owned by one endpoint; removing an endpoint removes all its subnets and nothing else.", "quantifier": "all histories of additions and removals", "why_tests_cant": "stale entries appear only after particular histories", "anchors": ["src/atbus_node.cpp:insert_child", "src/atbus_node.cpp:remove_child", "src/atbus_node.cpp:remove_collection", "src/atbus_node.cpp:add_endpoint", "src/atbus_node.cpp:remove_endpoint"]}
{"id": "C34", "title": "Next-hop choice follows the documented routing rule", "statement": "For a destination id: a directly connected endpoint covering it is used; otherwise, if the id belongs to the node's own subnets it is unreachable; otherwise the parent is used if there is one; sending to oneself is never sent to the network; an error is reported exactly when no usable connection exists.", "quantifier": "all node states and destination ids", "why_tests_cant": "all tables, parents and ids", "anchors": ["src/atbus_node.cpp:get_remote_channel", "src/atbus_node.cpp:send_data_msg"]}
{"id": "C35", "title": "A data message is forwarded at most ttl times in any network", "statement": "Whatever the topology and routing tables, including misconfigured ones with loops, one data request with a positive hop limit causes a bounded number of transmissions, at most the limit along its path, and no node handles it after the limit is reached.", "quantifier": "all networks of any size, all routing behaviours, all positive ttl values", "why_tests_cant": "all topologies with loops of any length", "anchors": ["src/atbus_msg_handler.cpp:on_recv_data_transfer_req", "src/atbus_msg_handler.cpp:forward_data_message"]}
{"id": "C36", "title": "Forwarding never goes back to where it came from", "statement": "When a node forwards a data message it never forwards it to itself nor back to the neighbour it was received from, and it stamps itself as the sender of the forwarded copy.", "quantifier": "all node states and messages", "why_tests_cant": "all tables and all message headers", "anchors": ["src/atbus_msg_handler.cpp:forward_data_message"]}
{"id": "C37", "title": "Access tokens gate registration", "statement": "A peer is registered only if its access data was produced with one of the node's tokens, or the node has no token and the peer's access data is empty; two nodes sharing a token always accept each other's genuine data.", "quantifier": "all token lists and all access data", "why_tests_cant": "all token lists; acceptance of forged or replayed data is about what an adversary may send", "anchors": ["src/atbus_node.cpp:check_access_hash", "src/atbus_node.cpp:generate_access_hash", "src/atbus_msg_handler.cpp:on_recv_node_reg_req"]}
{"id": "C38", "title": "Unregistered connections cannot make a node deliver or emit data messages", "statement": "Until a connection has completed registration, no data request or response received on it is delivered to the application, forwarded, or answered towards a third node.", "quantifier": "all messages and all node states", "why_tests_cant": "all message headers including unsupported versions", "anchors": ["src/atbus_msg_handler.cpp:on_recv_data_transfer_req", "src/atbus_msg_handler.cpp:on_recv_data_transfer_rsp"]}
{"id": "C39", "title": "Message sequence numbers are non-zero and unique", "statement": "Sequence numbers handed out by a node are never 0 and do not repeat within 2^64-1 consecutive allocations.", "quantifier": "all allocation histories", "why_tests_cant": "wrap-around after 2^64 allocations cannot be run", "anchors": ["src/atbus_node.cpp:alloc_msg_seq"]}
{"id": "C40", "title": "Messages to oneself are delivered in order, once, and without starving the caller", "statement": "Data a node sends to itself is delivered exactly once in sending order, including data sent from within a delivery callback; a single dispatch delivers at most the configured loop count and the rest stays queued.", "quantifier": "all sequences of sends, nested sends from callbacks and dispatch calls", "why_tests_cant": "nesting patterns are unbounded", "anchors": ["src/atbus_node.cpp:send_data_msg", "src/atbus_node.cpp:dispatch_all_self_msgs"]}
{"id": "C41", "title": "Fault tolerance threshold", "statement": "An endpoint is removed exactly when it has collected more consecutive faults than the configured tolerance without an intervening success.", "quantifier": "all histories of faults and successes", "why_tests_cant": "all histories", "anchors": ["src/atbus_node.cpp:add_endpoint_fault", "src/atbus_node.cpp:add_connection_fault", "src/atbus_node.cpp:on_recv"]}
{"id": "C42", "title": "Node up and node down are reported at most once per life cycle and alternate", "statement": "Over any history of start, activation, shutdown, processing and reset calls the on_node_up and on_node_down callbacks alternate starting with up.", "quantifier": "all call histories", "why_tests_cant": "all histories including shutdown before activation and repeated shutdown", "anchors": ["src/atbus_node.cpp:on_actived", "src/atbus_node.cpp:on_shutdown", "src/atbus_node.cpp:shutdown", "src/atbus_node.cpp:reset", "src/atbus_node.cpp:proc"]}
{"id": "C43", "title": "Node time never runs backwards and connect timeouts always fire", "statement": "The node's clock never decreases whatever times are passed to proc, and after proc at time t no connection attempt that is still unfinished with a deadline before t remains pending.", "quantifier": "all sequences of proc calls and connection creations with arbitrary times", "why_tests_cant": "clock jumps in every pattern", "anchors": ["src/atbus_node.cpp:proc", "src/atbus_node.cpp:add_connection_timer"]}
{"id": "C44", "title": "Processing timers always terminates", "statement": "Each call of proc finishes its ping processing after finitely many steps, whatever timers are due and whatever state the endpoints are in.", "quantifier": "all timer lists and endpoint states", "why_tests_cant": "needs particular combinations of due timers and unavailable endpoints", "anchors": ["src/atbus_node.cpp:proc", "src/atbus_endpoint.cpp:add_ping_timer"]}
{"id": "C45", "title": "Only the matching pong ends a ping", "statement": "The measured ping delay changes only when a pong with the sequence number of the outstanding ping arrives on a connection bound to the endpoint; stale, duplicated and foreign pongs do not change it.", "quantifier": "all histories of pings and pongs", "why_tests_cant": "all reorderings and duplications", "anchors": ["src/atbus_msg_handler.cpp:on_recv_node_pong", "src/atbus_endpoint.cpp:set_stat_unfinished_ping", "src/atbus_node.cpp:ping_endpoint"]}
{"id": "C46", "title": "Connection binding is consistent", "statement": "At all times a connection is bound to at most one endpoint, and it is listed (as control or data connection, exactly once) by exactly the endpoint it is bound to; losing the control connection or the last data connection unbinds all connections of that endpoint.", "quantifier": "all histories of add/remove/reset calls on any number of endpoints and connections", "why_tests_cant": "all histories", "anchors": ["src/atbus_endpoint.cpp:add_connection", "src/atbus_endpoint.cpp:remove_connection", "src/atbus_endpoint.cpp:reset", "src/atbus_connection.cpp:reset"]}
{"id": "C47", "title": "Data connection choice is the best usable one", "statement": "The data connection chosen for a peer is connected, process-local connections are chosen only for peers of the same process and host-local ones only for peers on the same host, the best class is preferred, and the control connection is used only if no data connection is usable.", "quantifier": "all sets of connections, hosts and process ids", "why_tests_cant": "all combinations of connection kinds and identities", "anchors": ["src/atbus_endpoint.cpp:get_data_connection", "src/atbus_endpoint.cpp:sort_connection_cmp_fn"]}
{"id": "C48", "title": "A request asking for a response gets exactly one", "statement": "In a chain of nodes, a data request with the response flag that reaches its destination causes exactly one response for the sender, sent by the destination; a request that fails on the way causes exactly one error response.", "quantifier": "all chain lengths and failure positions", "why_tests_cant": "all chain lengths and positions of failures", "anchors": ["src/atbus_msg_handler.cpp:on_recv_data_transfer_req", "src/atbus_msg_handler.cpp:send_transfer_rsp"]}
{"id": "C49", "title": "Registration never confuses identities", "statement": "A registration that claims the node's own id, or an id already registered by another process or host, is refused and leaves the existing registration untouched; a registration by the same process adds the connection to the existing endpoint.", "quantifier": "all registration messages and node states", "why_tests_cant": "all combinations of ids, hosts and process ids", "anchors": ["src/atbus_msg_handler.cpp:on_recv_node_reg_req", "src/atbus_node.cpp:add_endpoint"]}
{"id": "C50", "title": "Shared memory segments are released exactly when the last user closes", "statement": "Opening the same shared memory name n times and closing it n times unmaps it exactly at the last close, for every interleaving of opens and closes of any names.", "quantifier": "all histories of opens and closes over all names", "why_tests_cant": "leaks and early unmaps depend on the history and the kind of name", "anchors": ["src/channel_shm.cpp:shm_open_buffer", "src/channel_shm.cpp:shm_close_buffer"]}
{"id": "C51", "title": "Oversized data is refused before anything is sent", "statement": "A data or command message larger than the configured message size is refused with an error and nothing is queued or transmitted; every message that is transmitted fits the receiving side's limit for the same configuration.", "quantifier": "all message sizes and configurations", "why_tests_cant": "all sizes around the limits for all configurations", "anchors": ["src/atbus_node.cpp:send_data", "src/atbus_node.cpp:send_custom_cmd", "src/atbus_msg_handler.cpp:send_msg", "src/channel_io_stream.cpp:io_stream_send"]}
{"id": "C52", "title": "Endpoint added and removed notifications pair up", "statement": "For every endpoint, over any history, the application sees one added notification and later exactly one removed notification per registration.", "quantifier": "all histories of registration, removal, disconnect and reset", "why_tests_cant": "depends on the number of subnets and on how the endpoint goes away", "anchors": ["src/atbus_node.cpp:add_endpoint", "src/atbus_node.cpp:remove_endpoint", "src/atbus_node.cpp:disconnect", "src/atbus_node.cpp:reset", "src/atbus_node.cpp:remove_collection"]}
{"id": "C53", "title": "Push statistics account for every push", "statement": "For every connection, at any time, pushes started equal pushes reported successful plus pushes reported failed plus pushes still queued.", "quantifier": "all histories of pushes, write completions and failures", "why_tests_cant": "all histories", "anchors": ["src/atbus_connection.cpp:push", "src/atbus_connection.cpp:ios_push_fn", "src/atbus_connection.cpp:mem_push_fn", "src/atbus_connection.cpp:iostream_on_written", "src/channel_io_stream.cpp:io_stream_try_write"]}
{"id": "C54", "title": "Parsing an address always ends normally", "statement": "Parsing any text as an address is either refused or yields a scheme and host that are parts of the text; it never throws and never has undefined behaviour.", "quantifier": "all texts", "why_tests_cant": "short texts and long numbers are unusual inputs", "anchors": ["src/channel_utility.cpp:make_address"]}
{"id": "C55", "title": "Every listen and connect call is answered exactly once", "statement": "A call of io_stream_listen or io_stream_connect that returns an error never calls its callback; one that returns success calls it exactly once, at the latest before io_stream_close returns, whatever the application does in its callbacks.", "quantifier": "all histories of calls, libuv reports and re-entrant callbacks", "why_tests_cant": "resolution, connection and closing can end in any order", "anchors": ["src/channel_io_stream.cpp:io_stream_listen", "src/channel_io_stream.cpp:io_stream_connect", "src/channel_io_stream.cpp:io_stream_dns_connection_cb", "src/channel_io_stream.cpp:io_stream_dns_connect_cb", "src/channel_io_stream.cpp:io_stream_all_connected_cb", "src/channel_io_stream.cpp:io_stream_close"]}
{"id": "C56", "title": "Closing a channel ends and leaves nothing behind", "statement": "After io_stream_close was called it returns after finitely many reports of libuv, is never stuck without one to wait for, and when it returns no request, no connection and no handle of the channel is left and every connection was reported as disconnected.", "quantifier": "all histories before the call and all orders of reports and callbacks during it", "why_tests_cant": "depends on what is outstanding when the channel is closed", "anchors": ["src/channel_io_stream.cpp:io_stream_close", "src/channel_io_stream.cpp:io_stream_disconnect_inner", "src/channel_io_stream.cpp:io_stream_connection_on_close"]}
{"id": "C57", "title": "Connections are announced and reported as disconnected once, without undefined behaviour", "statement": "Every connection is handed to the application exactly once and before anything else is reported for it, it is reported as disconnected at most once and nothing is reported for it afterwards, every disconnect callback is called, and no freed object is used.", "quantifier": "all histories of calls, libuv reports and re-entrant callbacks", "why_tests_cant": "re-entrant calls at every possible point", "anchors": ["src/channel_io_stream.cpp:io_stream_make_connection", "src/channel_io_stream.cpp:io_stream_connection_on_close", "src/channel_io_stream.cpp:io_stream_disconnect", "src/channel_io_stream.cpp:io_stream_disconnect_inner"]}
{"id": "C58", "title": "Events of one connection leave the others alone", "statement": "A read error, a bad frame, a write failure or a disconnect of one connection neither changes nor closes any other connection of the channel.", "quantifier": "all channel states and events", "why_tests_cant": "all combinations of connections and error histories", "anchors": ["src/channel_io_stream.cpp:io_stream_on_recv_read_fn", "src/channel_io_stream.cpp:io_stream_on_written_fn", "src/channel_io_stream.cpp:io_stream_disconnect_inner"]}
{"id": "C59", "title": "A message is reported as sent only if it was", "statement": "The callback for a finished write reports success for a message exactly if libuv wrote it; messages dropped on closing are reported with an error.", "quantifier": "all histories of sends, write reports and disconnects", "why_tests_cant": "needs failing writes at every position", "anchors": ["src/channel_io_stream.cpp:io_stream_on_written_fn", "src/channel_io_stream.cpp:io_stream_try_write", "src/channel_io_stream.cpp:io_stream_channel_callback"]}
{"id": "C60", "title": "A successful connect means an attempt is in progress", "statement": "If node::connect returns success for a usable stream address, then afterwards some connection object is connecting or registering with exactly this address.", "quantifier": "all histories of calls, reports and timeouts, all addresses", "why_tests_cant": "depends on the texts of all other pending addresses", "anchors": ["src/atbus_node.cpp:node::connect", "src/atbus_connection.cpp:connection::connect", "src/atbus_node.cpp:node::add_connection_timer"]}
{"id": "C61", "title": "A node keeps trying to reach its parent", "statement": "While a started node with a configured parent is not connected to it, it calls connect again: never sooner than the shortest configured interval after the last call, never later than the longest interval allows, and it does not give up.", "quantifier": "all configurations, all histories of calls, reports, timeouts, registrations and losses of the parent", "why_tests_cant": "needs every order of failures and arbitrarily long times", "anchors": ["src/atbus_node.cpp:node::proc", "src/atbus_node.cpp:node::start", "src/atbus_node.cpp:node::on_disconnect", "src/atbus_node.cpp:node::on_parent_reg_done", "src/atbus_node.cpp:node::remove_endpoint"]}
{"id": "C62", "title": "A custom command is executed once by the node it is sent to, and its answer returns to the caller", "statement": "A command accepted by send_custom_cmd is executed at most once, by the node with the given id, with the arguments and the id of the caller; the caller is handed at most one answer, the one made by that node, with the sequence of the call, and can tell whether the command was executed.", "quantifier": "all networks of nodes, all histories of calls, deliveries, losses and route changes", "why_tests_cant": "needs networks of several nodes with every order of deliveries and losses", "anchors": ["src/atbus_node.cpp:node::send_custom_cmd", "src/atbus_msg_handler.cpp:msg_handler::on_recv_custom_cmd_req", "src/atbus_msg_handler.cpp:msg_handler::on_recv_custom_cmd_rsp", "src/atbus_msg_handler.cpp:msg_handler::send_custom_cmd_rsp"]}
{"id": "C63", "title": "A connection that is not registered has no effect besides registering", "statement": "A message received from a connection that is not registered is handled by the registration code or has no effect on the node, the application or the network; with tokens configured this holds for every command without a genuine key.", "quantifier": "all nodes, messages of every kind, connections and hash functions", "why_tests_cant": "every kind of message in every state of the connection with arbitrary contents", "anchors": ["src/atbus_msg_handler.cpp:msg_handler::dispatch_msg", "src/atbus_msg_handler.cpp:msg_handler::on_recv_custom_cmd_req", "src/atbus_msg_handler.cpp:msg_handler::on_recv_custom_cmd_rsp", "src/atbus_msg_handler.cpp:msg_handler::on_recv_node_ping", "src/atbus_msg_handler.cpp:msg_handler::on_recv_node_conn_syn"]}
{"id": "C64", "title": "Of two nodes that register with each other exactly one opens streams", "statement": "If one of two nodes listens on streams the other one connects to it; if both do, the one with the smaller id connects; a node connects only to addresses it can reach, and to all of these that are one-way; an endpoint is discarded only if no data connection to it or from it is possible.", "quantifier": "all pairs of nodes, all lists of addresses, hosts, processes and results of connect", "why_tests_cant": "needs all combinations of two lists of addresses, hosts and processes", "anchors": ["src/atbus_msg_handler.cpp:msg_handler::on_recv_node_reg_req", "src/atbus_node.cpp:node::connect"]}
{"id": "C65", "title": "A request to connect directly names an address of the destination that the source can reach", "statement": "After a message was forwarded between two children, the source is told an address of the destination that it can reach, if the destination listens on one.", "quantifier": "all nodes, all lists of addresses and results of connect", "why_tests_cant": "needs all combinations of address lists and ids of three nodes", "anchors": ["src/atbus_msg_handler.cpp:msg_handler::send_node_connect_sync", "src/atbus_msg_handler.cpp:msg_handler::on_recv_node_conn_syn", "src/atbus_endpoint.cpp:endpoint::add_listen"]}
{"id": "C66", "title": "Memory is shared only with nodes of the same process", "statement": "An address received from another node is opened as a memory channel only if that node is in the same process on the same host, and a request to connect never opens one.", "quantifier": "all texts of addresses, all nodes, all states", "why_tests_cant": "needs all texts, the classification of an address and its parsing being separate code", "anchors": ["src/atbus_connection.cpp:connection::connect", "src/atbus_msg_handler.cpp:msg_handler::on_recv_node_reg_req", "src/atbus_msg_handler.cpp:msg_handler::on_recv_node_conn_syn", "src/atbus_node.cpp:node::connect", "src/channel_utility.cpp:is_local_process_address"]}
{"id": "C67", "title": "Each listening memory channel is polled once per call of proc", "statement": "In one call of node::proc every memory or shared memory channel that is listened on from its beginning to its end is polled exactly once, none twice, the loop ends, and what is received on one channel does not disturb the others.", "quantifier": "all histories of listening and closing, all contents of the channels, all actions of message handlers during the loop", "why_tests_cant": "needs handlers that change the table at every position of the loop, and undefined behaviour need not show", "anchors": ["src/atbus_node.cpp:node::proc", "src/atbus_node.cpp:node::add_proc_connection", "src/atbus_node.cpp:node::remove_proc_connection", "src/atbus_connection.cpp:connection::mem_proc_fn", "src/atbus_connection.cpp:connection::shm_proc_fn", "src/atbus_connection.cpp:connection::disconnect"]}
{"id": "C68", "title": "The pointers between node connections and stream connections are always valid", "statement": "No callback of the stream channel uses an object that is gone; a node connection and a stream connection that point at each other are in use and in one pair only, losing one closes the other, an open stream always belongs to a living connection, a connection that was reset stays disconnected, and the number of unfinished incoming connections is limited.", "quantifier": "all histories of requests, reports of the stream channel, resets by the application inside callbacks, registrations and collections", "why_tests_cant": "needs every order of callbacks, timeouts and collections, and undefined behaviour need not show", "anchors": ["src/atbus_connection.cpp:connection::reset", "src/atbus_connection.cpp:connection::disconnect", "src/atbus_connection.cpp:connection::iostream_on_connected_cb", "src/atbus_connection.cpp:connection::iostream_on_accepted", "src/atbus_connection.cpp:connection::iostream_on_recv_cb", "src/atbus_connection.cpp:connection::iostream_on_disconnected", "src/atbus_connection.cpp:connection::ios_free_fn", "src/atbus_node.cpp:node::on_new_connection", "src/atbus_node.cpp:node::add_connection_gc_list"]}
{"id": "C69", "title": "Dead endpoints are collected, live ones are not", "statement": "A collection removes exactly the waiting endpoints that are not usable and closes their connections; every registered endpoint has a control connection or is waiting for collection, and is pinged from time to time or waiting; a peer that registers again is not removed by an old entry; the listeners of the node stay open whatever happens to others.", "quantifier": "all histories of registrations, lost connections, pings, calls of the application (also from within a collection) and collections", "why_tests_cant": "needs every order of losses, registrations and collections, with calls from inside the callbacks of a collection", "anchors": ["src/atbus_node.cpp:node::proc", "src/atbus_node.cpp:node::poll", "src/atbus_node.cpp:node::add_endpoint_gc_list", "src/atbus_node.cpp:node::remove_endpoint", "src/atbus_node.cpp:node::disconnect", "src/atbus_endpoint.cpp:endpoint::reset", "src/atbus_endpoint.cpp:endpoint::remove_connection", "src/atbus_endpoint.cpp:endpoint::is_available", "src/atbus_connection.cpp:connection::reset"]}
{"id": "C70", "title": "Processes that open the same shared memory name share one channel", "statement": "Whatever processes open a shared memory channel by the same name, in whatever order and with whatever sizes, they use one queue: a message received is always the oldest one sent by that name and not yet received, a send succeeds if there is room, and no message is lost or doubled when connections are opened or closed and processes die and come back. No connection uses memory that is not mapped.", "quantifier": "all histories of opening, sending, receiving, closing and dying by any number of processes and names, with system calls that fail at any point", "why_tests_cant": "needs several processes with different failures of system calls and every order of opening and closing", "anchors": ["src/channel_shm.cpp:shm_open_buffer", "src/channel_shm.cpp:shm_close_buffer", "src/channel_shm.cpp:shm_attach", "src/channel_shm.cpp:shm_init", "src/atbus_connection.cpp:connection::listen", "src/atbus_connection.cpp:connection::connect"]}
{"id": "C71", "title": "In a tree of nodes every data message reaches the node it is sent to", "statement": "In nodes that form trees whose tops know each other, every message that send_data accepts is delivered exactly once, to the node it was sent to and to no other, with its content; it is refused only if it is too long or there is no such node; the sender gets exactly the answers it is owed; and the number of times a message is handled is bounded by the height of the trees.", "quantifier": "all trees, all route tables that fit them, all histories of sending and handling in any order", "why_tests_cant": "needs networks of every shape and every order in which messages are handled; a loop or a wrong turn shows only in some of them", "anchors": ["src/atbus_node.cpp:node::send_data", "src/atbus_node.cpp:node::get_remote_channel", "src/atbus_msg_handler.cpp:msg_handler::on_recv_data_transfer_req", "src/atbus_msg_handler.cpp:msg_handler::on_recv_data_transfer_rsp", "src/atbus_node.cpp:node::send_data_msg", "src/atbus_msg_handler.cpp:msg_handler::send_transfer_rsp"]}
{"id": "C72", "title": "However the network changes, no data message is delivered twice, wrongly or after a report of failure", "statement": "In any network, whatever nodes, routes and connections come and go between any two steps and whatever messages are lost: every message handed to an application was sent to that node by the node named as its sender and has the content that was sent; none is delivered twice, and none that was reported to its sender as failed is delivered; every answer belongs to a call of the node that gets it.", "quantifier": "all networks and all changes of them, all histories of sending, handling and losing messages in any order", "why_tests_cant": "needs networks of every shape with changes at every point; duplicates show only in rare combinations of failures", "anchors": ["src/atbus_node.cpp:node::send_data", "src/atbus_node.cpp:node::send_data_msg", "src/atbus_node.cpp:node::get_remote_channel", "src/atbus_node.cpp:node::dispatch_all_self_msgs", "src/atbus_msg_handler.cpp:msg_handler::on_recv_data_transfer_req", "src/atbus_msg_handler.cpp:msg_handler::on_recv_data_transfer_rsp", "src/atbus_msg_handler.cpp:msg_handler::send_transfer_rsp"]}
{"id": "C73", "title": "Two nodes agree whether they are registered with each other", "statement": "When two nodes have exchanged their registrations over a connection and nothing is on the way any more, then either both ends of the connection are closed, or both are established and belong to an endpoint with the id of the node at the other end, and each node has accepted the version and an access key of the other one. The exchange ends after at most six messages.", "quantifier": "all pairs of nodes after any history, all orders in which messages are handled, everything else that happens on the nodes in between, loss of the connection at any point", "why_tests_cant": "needs every interleaving of two requests, two answers and the closing of either end, with every way of refusing", "anchors": ["src/atbus_node.cpp:node::on_new_connection", "src/atbus_msg_handler.cpp:msg_handler::send_reg", "src/atbus_msg_handler.cpp:msg_handler::on_recv_node_reg_req", "src/atbus_msg_handler.cpp:msg_handler::on_recv_node_reg_rsp", "src/atbus_connection.cpp:connection::iostream_on_recv_cb", "src/atbus_connection.cpp:connection::iostream_on_disconnected", "src/atbus_connection.cpp:connection::reset"]}
{"id": "C74", "title": "Every unfinished connection is reported once or finishes", "statement": "A connection that is put on the list of unfinished connections leaves it exactly once: either because it was established, or after on_invalid_connection was called for it once. The list is never used through an iterator that is not valid, the loops of proc and of the reset of the node over the list end, and a node that was reset waits for no connection.", "quantifier": "all sequences of creations, establishments, resets, timeouts, calls of proc and resets of the node, made by the application at any time and inside any callback", "why_tests_cant": "needs every nesting of calls inside callbacks at every point of the loops, and what the allocator does with freed list nodes", "anchors": ["src/atbus_node.cpp:node::add_connection_timer", "src/atbus_node.cpp:node::remove_connection_timer", "src/atbus_node.cpp:node::proc", "src/atbus_node.cpp:node::reset", "src/atbus_connection.cpp:connection::create", "src/atbus_connection.cpp:connection::reset", "src/atbus_connection.cpp:connection::set_status", "src/atbus_connection.cpp:connection::remove_owner_checker"]}
{"id": "C75", "title": "Connections never point to an endpoint that is gone, whatever happens in callbacks", "statement": "No connection uses an endpoint object after its destruction. Whenever no call is running, a connection points to an endpoint exactly if that endpoint holds one reference to the connection, and a connection that was reset points to no endpoint and is held by none. The loop of the reset of an endpoint over its data connections ends.", "quantifier": "all sequences of bindings, resets of connections and endpoints, sortings and destructions of endpoints, made by the application at any time and inside any callback of a reset", "why_tests_cant": "needs every nesting of resets of connections and endpoints inside the callbacks of other resets, with the destruction of the endpoint at every point", "anchors": ["src/atbus_endpoint.cpp:endpoint::reset", "src/atbus_endpoint.cpp:endpoint::~endpoint", "src/atbus_endpoint.cpp:endpoint::add_connection", "src/atbus_endpoint.cpp:endpoint::remove_connection", "src/atbus_endpoint.cpp:endpoint::get_data_connection", "src/atbus_connection.cpp:connection::reset", "src/atbus_connection.cpp:connection::~connection"]}
{"id": "C76", "title": "The traffic counters are exact", "statement": "After every history each of the eight traffic counters of a connection (number and bytes of pushes begun, pushes that succeeded, pushes that failed, and pulls) is the number or the bytes of the events of that kind since the connection was last reset or taken from its endpoint, and each total of an endpoint is the sum over the connections bound to it; the totals of an endpoint never decrease during its life.", "quantifier": "all sequences of bindings, resets, openings, selections and transfers of any size over any number of connections and endpoints", "why_tests_cant": "needs every interleaving of transfers with bindings and resets of connections; tests look at the counters of one or two quiet connections", "anchors": ["src/atbus_endpoint.cpp:endpoint::get_stat_push_start_times", "src/atbus_endpoint.cpp:endpoint::get_stat_pull_size", "src/atbus_endpoint.cpp:endpoint::remove_connection", "src/atbus_connection.cpp:connection::reset", "src/atbus_connection.cpp:connection::push"]}
{"id": "C77", "title": "The results of proc and poll count the messages that were handled", "statement": "connection::proc returns the number of messages it handled, or the error of the channel if the loop ended with one; node::poll and node::proc return the number of messages handled during the call, plus one if the node was shut down.", "quantifier": "all states of the node, contents of the channels, actions of the handlers, results of receiving, and values of the counter of dispatched messages", "why_tests_cant": "depends on every combination of results of several channels in one call and on the wrap of a 64-bit counter", "anchors": ["src/atbus_node.cpp:node::proc", "src/atbus_node.cpp:node::poll", "src/atbus_connection.cpp:connection::proc", "src/atbus_connection.cpp:connection::mem_proc_fn", "src/atbus_connection.cpp:connection::shm_proc_fn"]}
{"id": "C78", "title": "The counters of a memory channel account for every node", "statement": "Whatever the contents of the nodes, every node filled by a successful send is later still in use, was given out with a message, or was counted in read_bad_node_count; the other counters change exactly as the result of the call says; they all stay zero while nothing goes wrong; read_bad_block_count is the number of bad blocks; the sizes printed for a channel are its used and free bytes.", "quantifier": "all sequences of sends and receives of any sizes, with arbitrary damage to node heads, data, clock and sequence number between any two calls", "why_tests_cant": "needs arbitrary damaged contents at every cursor position and the counters compared over whole histories", "anchors": ["src/channel_mem.cpp:mem_recv", "src/channel_mem.cpp:mem_send", "src/channel_mem.cpp:mem_show_channel", "src/channel_mem.cpp:mem_stats_get_error"]}
{"id": "C79", "title": "Messages pushed into a memory channel arrive at the other node", "statement": "The messages a node gets from a memory or shared memory channel are at every moment an initial part of the messages whose push reported success, in order and unchanged; each poll gets the next loop_times of them, so that everything pushed with success arrives after finitely many polls; a message that cannot be handled does not stop those behind it.", "quantifier": "all histories of pushes and polls, all message sizes and configurations, all results of the handlers, which may push into the same channel", "why_tests_cant": "needs every position of the cursors of the channel, every size against the buffer of the receiver and every pattern of failing handlers", "anchors": ["src/atbus_connection.cpp:connection::mem_push_fn", "src/atbus_connection.cpp:connection::mem_proc_fn", "src/atbus_connection.cpp:connection::shm_proc_fn", "src/atbus_node.cpp:node::on_recv", "src/atbus_node.cpp:node::add_connection_fault", "src/channel_mem.cpp:mem_send", "src/channel_mem.cpp:mem_recv"]}
{"id": "C80", "title": "Message handlers use no endpoint or connection that is gone", "statement": "No handler of a message uses an endpoint or a connection, or gives one to the application, after it was destroyed, whatever the application does in the callbacks that the handler makes.", "quantifier": "all paths through the handlers, all numbers of messages in a memory channel, all sequences of actions of the application in each callback (removing, disconnecting and resetting endpoints and connections, running and resetting the node)", "why_tests_cant": "needs every action of the application in every callback of every path; a use after destruction often goes unnoticed in a test", "anchors": ["src/atbus_node.cpp:node::on_recv", "src/atbus_node.cpp:node::remove_endpoint", "src/atbus_connection.cpp:connection::iostream_on_recv_cb", "src/atbus_connection.cpp:connection::mem_proc_fn", "src/atbus_msg_handler.cpp:msg_handler::on_recv_node_reg_req", "src/atbus_msg_handler.cpp:msg_handler::on_recv_node_reg_rsp", "src/atbus_msg_handler.cpp:msg_handler::on_recv_node_pong", "src/atbus_msg_handler.cpp:msg_handler::on_recv_data_transfer_req", "src/atbus_endpoint.cpp:endpoint::~endpoint"]}
{"id": "C81", "title": "A silent peer is found in bounded time, a talking one is kept", "statement": "An endpoint of which no message arrives any more is removed within (fault_tolerant + 2) * ping_interval seconds if proc is called every second (with a bound of the same kind for rarer calls and for the parent), and an endpoint of which a message arrives between any two calls of proc that are one ping_interval apart is never removed by the heartbeat. An endpoint that never gets usable connections is removed first_idle_timeout + ping_interval seconds after the first visit of proc at the latest, whatever it sends.", "quantifier": "all histories of registrations, messages, removals and calls of proc at any times, any number of endpoints, states of connections and results of sending, all configurations", "why_tests_cant": "a statement about all later times after all histories; tests with timeouts look at one endpoint and one schedule", "anchors": ["src/atbus_node.cpp:node::proc", "src/atbus_node.cpp:node::ping_endpoint", "src/atbus_node.cpp:node::add_endpoint_fault", "src/atbus_node.cpp:node::add_ping_timer", "src/atbus_node.cpp:node::on_parent_reg_done", "src/atbus_node.cpp:node::on_recv", "src/atbus_endpoint.cpp:endpoint::add_ping_timer"]}
{"id": "C82", "title": "A sender is delayed only by other senders that make progress", "statement": "A call of mem_send returns after at most write_retry_times * (length + 2 * node_count + 15) accesses of its own to the channel, not counting two accesses for each time another sender took an operation number or reserved nodes during the call (or a compare and swap failed spuriously); the loops over the nodes of the message end. A sender or receiver that stopped anywhere does not delay it.", "quantifier": "all interleavings of any number of senders and one receiver, all contents of the memory, all configurations and message sizes", "why_tests_cant": "a statement about the number of steps in every interleaving; a test that does not end only shows itself by hanging, in the one schedule it got", "anchors": ["src/channel_mem.cpp:mem_send", "src/channel_mem.cpp:mem_send_real", "src/channel_mem.cpp:mem_fetch_operation_seq"]}
{"id": "C83", "title": "Comparing and sorting subnets and connections is well defined", "statement": "The comparison of subnet ranges and the comparison of connections used by the sorts are strict weak orders, so that std::sort, std::map and std::lower_bound get what they require; all comparison operators agree with one another; the search for an id divides a sorted list into a first part that lies below the id and the rest; the result of sorting valid ranges, and of sorting connections stably, does not depend on the sort that is used; contain on a list of configured subnets says whether the id lies in one of them.", "quantifier": "all subnet ranges and connections, all lists of any length, all ids", "why_tests_cant": "a comparison that is not a strict weak order is undefined behaviour inside the library and shows only with some lists and some implementations", "anchors": ["src/atbus_endpoint.cpp:endpoint_subnet_range::operator<", "src/atbus_endpoint.cpp:endpoint_subnet_range::lower_bound_by_max_id", "src/atbus_endpoint.cpp:endpoint::merge_subnets", "src/atbus_endpoint.cpp:endpoint::sort_connection_cmp_fn", "src/atbus_endpoint.cpp:endpoint::contain"]}
{"id": "C84", "title": "An endpoint reported as available can be sent to", "statement": "is_endpoint_available says true exactly if the node is active, an endpoint with that id is registered and there is a usable connection to it for data; then sending to the id uses a connection to that very endpoint and fails only if the connection refuses the message.", "quantifier": "all nodes, routing tables, states of the connections and ids", "why_tests_cant": "needs the answer compared with the routing decision for every table and every combination of connection states", "anchors": ["src/atbus_node.cpp:node::is_endpoint_available", "src/atbus_node.cpp:node::get_endpoint", "src/atbus_node.cpp:node::send_data", "src/atbus_node.cpp:node::get_remote_channel"]}
{"id": "C85", "title": "A node that is reset leaves nothing behind", "statement": "reset ends, closes every connection and leaves no endpoint, connection, timer, message, reference or buffer in the node; a node that is initialised and started again cannot be told apart from a new one, except by its message numbers, statistics and callbacks.", "quantifier": "all states of the node with any number of connections, endpoints and timers, all behaviours of the application in the callbacks that open nothing", "why_tests_cant": "needs every state the node can be in when it is reset, and every action of the application in each of the callbacks", "anchors": ["src/atbus_node.cpp:node::reset", "src/atbus_node.cpp:node::init", "src/atbus_node.cpp:node::start", "src/atbus_node.cpp:node::remove_collection", "src/atbus_node.cpp:node::remove_endpoint", "src/atbus_node.cpp:node::add_endpoint_gc_list", "src/atbus_node.cpp:node::add_connection_gc_list", "src/atbus_connection.cpp:connection::reset", "src/atbus_endpoint.cpp:endpoint::reset"]}
{"id": "C86", "title": "A buffer manager gives back exactly the memory it took, and stays one queue through changes of mode and limits", "statement": "Whatever calls are made, including changes of mode and limits and calls whose allocation fails, a buffer manager holds exactly the memory of its blocks and of its static area, frees nothing twice and holds nothing after reset; front and back give the first and the last block of the queue; a call that fails for lack of memory changes nothing; set_mode and set_limit give the mode and the limits that were asked for.", "quantifier": "all sequences of calls with any sizes in both modes, changes of mode and limits at any time, any pattern of failing allocations", "why_tests_cant": "needs the failure of each allocation at each state of the queue, and leaks do not show in the results of calls", "anchors": ["src/detail/buffer.cpp:buffer_manager::reset", "src/detail/buffer.cpp:buffer_manager::set_mode", "src/detail/buffer.cpp:buffer_manager::set_limit", "src/detail/buffer.cpp:buffer_manager::front", "src/detail/buffer.cpp:buffer_manager::back", "src/detail/buffer.cpp:buffer_manager::push_back", "src/detail/buffer.cpp:buffer_manager::push_front", "src/detail/buffer.cpp:buffer_manager::merge_back", "src/detail/buffer.cpp:buffer_manager::merge_front", "src/detail/buffer.cpp:buffer_manager::pop_back", "src/detail/buffer.cpp:buffer_manager::pop_front"]}
{"id": "C87", "title": "Messages pushed into a stream connection arrive at the other node", "statement": "The receiving node gets an initial part of the messages whose push into a stream connection reported success, in order, unchanged and once each; if nothing makes it give up the connection (no more than fault_tolerant failing handlers in a row, no reset), everything arrives once the writes are finished and the bytes read, also if the sender leaves meanwhile; until then a write can end or something can be read, and there are only finitely many such steps.", "quantifier": "all runs of both ends of the stream: any messages, any splitting of reads, any merging of writes, results of handlers, faults and resets at any time", "why_tests_cant": "needs two nodes and control over where reads are split, when writes finish and which handlers fail", "anchors": ["src/atbus_connection.cpp:connection::push", "src/atbus_connection.cpp:connection::ios_push_fn", "src/atbus_connection.cpp:connection::ios_free_fn", "src/atbus_connection.cpp:connection::iostream_on_recv_cb", "src/atbus_connection.cpp:connection::iostream_on_disconnected", "src/atbus_node.cpp:node::on_recv", "src/atbus_node.cpp:node::add_connection_fault", "src/channel_io_stream.cpp:io_stream_send", "src/channel_io_stream.cpp:io_stream_on_recv_read_fn", "src/channel_io_stream.cpp:io_stream_disconnect"]}
{"id": "C88", "title": "Messages to one endpoint arrive once and, while its connections do not change, in order", "statement": "Whatever connections are chosen, lost and opened again, the node at the other end gets no message more often than it was sent, and over each stream in order; while the connections of the sender stay as they are all messages are got in the order in which they were sent; if the receiver has no reason to give up a stream everything accepted arrives.", "quantifier": "all sequences of sends, changes of connections, reads, writes and faults on any number of stream connections between two nodes", "why_tests_cant": "needs several connections with different delays, and the order of arrival over them is up to the network", "anchors": ["src/atbus_node.cpp:node::send_data_msg", "src/atbus_node.cpp:node::send_msg", "src/atbus_endpoint.cpp:endpoint::get_data_connection", "src/atbus_endpoint.cpp:endpoint::add_connection", "src/atbus_connection.cpp:connection::push", "src/atbus_connection.cpp:connection::iostream_on_recv_cb"]}
{"id": "C89", "title": "State and flags of a node agree, and a node below a parent works only after it was accepted", "statement": "After every call a node in state RUNNING is active and an active node is RUNNING, LOST_PARENT or CONNECTING_PARENT; a node with an id and the address of a parent becomes active only after a registration response that accepts it; CONNECTING_PARENT is entered only with an id and an address of a parent; RUNNING below a parent means that the present parent accepted the node.", "quantifier": "all sequences of calls of the application, the network and the timers, with any calls inside callbacks to any depth", "why_tests_cant": "the state depends on the order of registration, loss of the parent, shutdown and reset, and on calls made inside callbacks", "anchors": ["src/atbus_node.cpp:node::init", "src/atbus_node.cpp:node::start", "src/atbus_node.cpp:node::reset", "src/atbus_node.cpp:node::proc", "src/atbus_node.cpp:node::on_actived", "src/atbus_node.cpp:node::on_parent_reg_done", "src/atbus_node.cpp:node::add_endpoint", "src/atbus_node.cpp:node::remove_endpoint", "src/atbus_msg_handler.cpp:msg_handler::on_recv_node_reg_rsp"]}
{"id": "C90", "title": "Listening replaces no file but the socket's own, and an announced unix address leads to the socket", "statement": "Whatever a node listens to: a file that no listened address names is never removed, and only addresses of unix sockets remove files; every announced address of a unix socket leads each process of the host to the socket that was opened for it, and the file of the socket stays while the node listens; a path that fits into a socket address can be listened to.", "quantifier": "all sequences of listen calls, all addresses, all contents of the file system, all working directories, all answers of the system", "why_tests_cant": "tests listen to fresh absolute paths in one working directory; other schemes, names that exist, relative paths and lengths at the limit are not tried", "anchors": ["src/atbus_connection.cpp:connection::listen", "src/channel_io_stream.cpp:io_stream_listen", "src/channel_io_stream.cpp:io_stream_get_max_unix_socket_length", "src/atbus_node.cpp:node::listen", "src/atbus_endpoint.cpp:endpoint::add_listen", "src/channel_utility.cpp:make_address"]}
{"id": "C91", "title": "Data messages between two nodes arrive once each and in order, however many nodes and streams are between them", "statement": "Whatever happens in a network of nodes connected by streams: the application of a node gets from another node exactly messages that were given to send_data there for this node, each at most as often as it was accepted, in the order in which they were accepted; and all accepted ones, once the streams have come to rest.", "quantifier": "all networks, tables, numbers of nodes on the way, message contents, sequences of calls, writes, reads, refusals and handling in any interleaving", "why_tests_cant": "tests send single messages over one or two nodes in one process; messages under way on several streams at once, refused pushes in the middle and merged or split writes are not tried together", "anchors": ["src/atbus_node.cpp:node::send_data", "src/atbus_node.cpp:node::send_msg", "src/atbus_msg_handler.cpp:forward_data_message", "src/atbus_msg_handler.cpp:msg_handler::on_recv_data_transfer_req", "src/atbus_connection.cpp:connection::push", "src/atbus_connection.cpp:connection::unpack", "src/channel_io_stream.cpp:io_stream_send", "src/channel_io_stream.cpp:io_stream_try_write"]}
{"id": "C92", "title": "disconnect and remove_endpoint remove exactly the endpoint with the given id and say whether they did", "statement": "After any history, disconnect(id) and remove_endpoint(id, expected) succeed exactly when an endpoint with this id (and, if one is given, the expected object) is registered as parent or child. On success this endpoint and no other leaves the registry, one notification is made, its connections and no others are closed, and the id is not found any more while every other id is found as before. On failure nothing changes.", "quantifier": "all histories of registrations, responses, removals, disconnects, resets and connection events; all ids and expected objects", "why_tests_cant": "tests remove an endpoint that is known to be there; the lookup goes through the ordered table of subnets, so whether the right object is found depends on all other entries", "anchors": ["src/atbus_node.cpp:node::disconnect", "src/atbus_node.cpp:node::remove_endpoint", "src/atbus_node.cpp:node::remove_child", "src/atbus_node.cpp:node::get_endpoint", "src/atbus_node.cpp:node::find_route", "src/atbus_endpoint.cpp:endpoint::reset"]}
{"id": "C93", "title": "The traffic of data messages comes to an end, and then everything accepted has arrived", "statement": "In a network of nodes connected by streams, each call of send_data causes a bounded number of messages to be handled anywhere (copies, answers and copies of answers), whatever the tables of the nodes are. Once nothing new is sent only finitely many writes, reads and messages follow, in whatever order they happen; and when nothing more can happen and the streams are open, everything put into them has been handled, and in a tree of nodes every accepted message has been given to its target.", "quantifier": "all networks, tables, orders of events, splittings of the reads, hop limits; answers must not be routed in circles (C35)", "why_tests_cant": "termination is about infinite runs, and the bound is about all of them", "anchors": ["src/atbus_msg_handler.cpp:on_recv_data_transfer_req", "src/atbus_msg_handler.cpp:on_recv_data_transfer_rsp", "src/atbus_msg_handler.cpp:forward_data_message", "src/atbus_node.cpp:node::send_data", "src/channel_io_stream.cpp:io_stream_try_write", "src/channel_io_stream.cpp:io_stream_on_recv_read_fn", "src/atbus_connection.cpp:connection::push"]}
{"id": "C94", "title": "A stream connection is named by where it comes from, and only the connection to the parent counts as such", "statement": "The address of an accepted connection is the family, IP address and port of its other end (the path for a unix socket), so that connections from different places have different addresses; an address or a resolved name leads to the host and port it says; and a connection counts as the one to the parent only if the node made it to the parent, so that nobody else can change the state of a node that waits for its parent.", "quantifier": "all families, hosts, ports, paths and configured parents", "why_tests_cant": "needs a client with a chosen port; wrong ports only show in logs", "anchors": ["src/channel_io_stream.cpp:io_stream_tcp_connection_cb", "src/channel_io_stream.cpp:io_stream_pipe_connection_cb", "src/channel_io_stream.cpp:io_stream_dns_connection_cb", "src/channel_io_stream.cpp:io_stream_dns_connect_cb", "src/channel_io_stream.cpp:io_stream_listen", "src/channel_io_stream.cpp:io_stream_connect", "src/channel_utility.cpp:make_address", "src/atbus_node.cpp:node::on_disconnect", "src/atbus_connection.cpp:connection::iostream_on_accepted"]}
{"id": "C95", "title": "The host name of a process is a stable identity of its machine, and the hash code of a node one of its run", "statement": "Two processes get the same host name exactly if their machines have the same set of external hardware addresses, whatever the order and number of interfaces; the name is kept once it is known, unless the program forces another, and every node announces it; the bytes that are hashed into the hash code are the same only for the same addresses, host name, process, object, id and start time.", "quantifier": "all lists of interfaces, all sequences of get/set/init/register calls with changing interfaces, all identities of nodes", "why_tests_cant": "a test runs on one machine with one list of interfaces; a collision would need two machines and only shows as a wrong choice of channel", "anchors": ["src/atbus_node.cpp:node::get_hostname", "src/atbus_node.cpp:node::set_hostname", "src/atbus_node.cpp:host_name_buffer", "src/atbus_node.cpp:node::init_hash_code", "src/atbus_node.cpp:node::init", "src/atbus_endpoint.cpp:endpoint::update_hash_code", "src/atbus_endpoint.cpp:endpoint::get_data_connection", "src/atbus_msg_handler.cpp:msg_handler::send_reg"]}
{"id": "C96", "title": "Answers over streams go to the node that sent the message, and a message is not both delivered and reported as failed", "statement": "In a network of nodes that are connected by streams, every answer that an application is shown answers a message that its node built by send_data, with the same sequence number, content and target, and reports a failure unless an answer was asked for; a message is delivered or reported as failed at most as often as send_data accepted it; and in a network that is a tree, once the streams are at rest, exactly the accepted messages to existing nodes were delivered, and exactly the others were reported to their senders, each once.", "quantifier": "all numbers of nodes and streams, all tables (also changing), all orders of sends, writes, reads and handling, all payloads, all hop limits", "why_tests_cant": "a wrong or doubled answer needs several relaying nodes and a certain order of writes and reads", "anchors": ["src/atbus_msg_handler.cpp:msg_handler::on_recv_data_transfer_rsp", "src/atbus_msg_handler.cpp:msg_handler::on_recv_data_transfer_req", "src/atbus_msg_handler.cpp:msg_handler::send_transfer_rsp", "src/atbus_node.cpp:node::send_data", "src/atbus_node.cpp:node::on_recv_forward_response", "src/atbus_connection.cpp:connection::unpack", "src/channel_io_stream.cpp:io_stream_send"]}
{"id": "C97", "title": "Handles and loops given to libuv are closed once and freed once, after libuv is done with them", "statement": "Every uv handle of a stream channel is kept by exactly one object, given to uv_close at most once and freed exactly when libuv reported it as closed; the data pointer of a handle always has the type its callback expects; nothing is leaked once libuv reported everything; the channel frees exactly the event loops it made and none with a living handle on it; and when io_stream_close returns no handle is left.", "quantifier": "all histories of initialising, listening, connecting, accepting, disconnecting and closing, with every outcome and order of the reports of libuv", "why_tests_cant": "the error paths (failed bind, accept or fileno, connect reported while closing) and the order of close reports are up to the system", "anchors": ["src/channel_io_stream.cpp:io_stream_make_stream_ptr", "src/channel_io_stream.cpp:io_stream_delete_stream_fn", "src/channel_io_stream.cpp:io_stream_shutdown_ev_handle", "src/channel_io_stream.cpp:io_stream_make_connection", "src/channel_io_stream.cpp:io_stream_all_connected_cb", "src/channel_io_stream.cpp:io_stream_tcp_connection_cb", "src/channel_io_stream.cpp:io_stream_pipe_connection_cb", "src/channel_io_stream.cpp:io_stream_async_data_on_close", "src/channel_io_stream.cpp:io_stream_shared_ptr_on_close", "src/channel_io_stream.cpp:io_stream_connection_on_close", "src/channel_io_stream.cpp:io_stream_get_loop", "src/channel_io_stream.cpp:io_stream_init", "src/channel_io_stream.cpp:io_stream_close", "src/channel_io_stream.cpp:io_stream_run"]}
{"id": "C98", "title": "The report of a memory channel tells what is in it, and its settings can be changed while it is used", "statement": "mem_show_channel reads only the channel's own nodes, whatever is in them; its node list, read around the ring from the read index, spells exactly the messages waiting, with lengths, hashes and bytes; the available node number is what mem_send goes by; buffer, used and free size are those of the ring; the getters and the report give the settings set last, and changing settings between calls never changes what is sent or received.", "quantifier": "all channels of any size, all sequences of sends, receives and changes of settings, all numbers of bytes asked for", "why_tests_cant": "the report is only ever looked at on small channels in one or two states; the figures depend on the size of the ring and where the messages lie in it", "anchors": ["src/channel_mem.cpp:mem_show_channel", "src/channel_mem.cpp:mem_get_node_head", "src/channel_mem.cpp:mem_get_block_head", "src/channel_mem.cpp:mem_get_available_node_count", "src/channel_mem.cpp:mem_configure_set_write_timeout", "src/channel_mem.cpp:mem_configure_get_write_timeout", "src/channel_mem.cpp:mem_configure_set_write_retry_times", "src/channel_mem.cpp:mem_configure_get_write_retry_times"]}
{"id": "C99", "title": "Calling a node from its own callbacks is safe as long as no reset begins inside one", "statement": "Whatever the application calls in its callbacks, at any depth: unless a reset begins (or init is called) inside a callback, the stream channel is never closed inside one of its own callbacks (which would abort the process), no call goes on with buffers or tables that a reset above it has freed, and no message to oneself is removed that is not there. An application that calls none of proc, poll, reset and init in its callbacks is safe. The flags IN_PROC, IN_POLL, IN_CALLBACK, RECV_SELF_MSG, RESETTING, IN_GC_* and the channel's IN_CALLBACK tell what is going on; proc, poll, reset and the handing over of messages to oneself run at most once at a time, the last never inside a callback.", "quantifier": "all sequences of calls, callbacks and returns, of any nesting depth", "why_tests_cant": "tests call back into a node in a few handlers at depth one; the bad cases need a shutdown followed by a further call at a particular depth", "anchors": ["src/atbus_node.cpp:flag_guard_t", "src/atbus_node.cpp:proc", "src/atbus_node.cpp:poll", "src/atbus_node.cpp:reset", "src/atbus_node.cpp:init", "src/atbus_node.cpp:shutdown", "src/atbus_node.cpp:dispatch_all_self_msgs", "src/channel_io_stream.cpp:io_stream_flag_guard", "src/channel_io_stream.cpp:io_stream_close"]}
{"id": "C100", "title": "An address in text form leads to the socket address it names", "statement": "Listening at or connecting to a text made of the scheme ipv4 (in upper or lower case), a host and a port leads to the socket address with the bytes of the host and the port, or to an error. The texts taken for IPv4 addresses are exactly the dotted quads of four numbers below 256 without needless zeros; the text printed for a resolved or accepted address is that of its bytes, fits the buffer, and belongs to no other address.", "quantifier": "all texts, all schemes, all bytes and ports, all answers of the system", "why_tests_cant": "tests listen at and connect to three well-formed addresses; a malformed host succeeds too, so a test on one machine does not notice", "anchors": ["src/channel_io_stream.cpp:io_stream_listen", "src/channel_io_stream.cpp:io_stream_connect", "src/channel_io_stream.cpp:io_stream_dns_connection_cb", "src/channel_io_stream.cpp:io_stream_dns_connect_cb", "src/channel_utility.cpp:make_address"]}
{"id": "C101", "title": "The delay of an endpoint is the time between a ping and its pong", "statement": "If the other end only answers pings (with whatever losses, delays and overtaking) the pong that answers the last ping sets the ping delay of the endpoint to the difference of the node's own clock, in milliseconds, between sending the ping and handling the pong, and finishes the ping; a pong for an older ping, or a second one, changes neither the delay nor the time of the last pong. proc never sets the clock back. With times below 292 million years nothing overflows, and if the node is started once and microseconds stay below a second the delay is never negative.", "quantifier": "all sequences of clock updates, pings, other messages, answers, losses and pongs in any order, with fewer than 2^64 sequence numbers", "why_tests_cant": "late and duplicate pongs need particular timing between two nodes; overflow and negative delays need odd clock values or a made-up pong", "anchors": ["src/atbus_msg_handler.cpp:send_ping", "src/atbus_msg_handler.cpp:on_recv_node_ping", "src/atbus_msg_handler.cpp:on_recv_node_pong", "src/atbus_node.cpp:ping_endpoint", "src/atbus_node.cpp:proc", "src/atbus_node.cpp:start", "src/atbus_endpoint.cpp:set_stat_ping", "src/atbus_endpoint.cpp:set_stat_ping_delay"]}
{"id": "C102", "title": "A node and its streams have the settings last given and run on the loop these ask for", "statement": "Copying settings copies every field and default settings overwrite every field. After init the settings are exactly those given (or the defaults), with the access tokens cut to their limit and the protocol version of the code; nothing of an earlier life of the node is left. Unless the application asks for the stream channel while the node is not initialised, the channel always has the limits that follow from the current settings and runs on the loop these name (else the default loop), which is also the loop of the node, so reset waits on the loop on which the unfinished operations are, and ends.", "quantifier": "all settings, all earlier contents, and all sequences of init, reset, get_evloop, get_iostream_channel, stream operations and runs of loops", "why_tests_cant": "tests initialise a node once with one loop; re-initialisation with another loop and early use of the channel are never exercised, and a hang cannot be observed by a finite test", "anchors": ["src/atbus_node.cpp:conf_t", "src/atbus_node.cpp:default_conf", "src/atbus_node.cpp:init", "src/atbus_node.cpp:reset", "src/atbus_node.cpp:get_evloop", "src/atbus_node.cpp:get_iostream_channel", "src/atbus_node.cpp:get_iostream_conf", "src/channel_io_stream.cpp:io_stream_init_configure", "src/channel_io_stream.cpp:io_stream_init", "src/channel_io_stream.cpp:io_stream_get_loop"]}
{"id": "C103", "title": "No connection or endpoint outlives its node or uses it after its end", "statement": "Every connection and endpoint is destroyed exactly once, when the last pointer to it (of the node's tables and lists, of an unfinished stream operation, of the node itself or of the application) goes. If the application has given back all its pointers when the node is destroyed, and makes no connection inside the callbacks of reset, then no destructor or reset of an object uses the node after its end, none erases an element of a list that is being destroyed, every object ever made has been destroyed when the node has been, and when reset has ended only the node's own endpoint and what the application holds are left.", "quantifier": "all sequences of init, reset, creation, handshake, reset and collection of objects, stream operations, copies and releases of pointers by the application, and the end of the node", "why_tests_cant": "tests destroy nodes with no pointer left and connect nothing while resetting; a use after free is not visible without a memory checker, and depends on who holds the last pointer", "anchors": ["src/atbus_node.cpp:~node", "src/atbus_node.cpp:reset", "src/atbus_node.cpp:init", "src/atbus_node.cpp:add_connection_timer", "src/atbus_node.cpp:remove_connection_timer", "src/atbus_node.cpp:add_endpoint_gc_list", "src/atbus_node.cpp:add_connection_gc_list", "src/atbus_connection.cpp:create", "src/atbus_connection.cpp:~connection", "src/atbus_connection.cpp:reset", "src/atbus_endpoint.cpp:create", "src/atbus_endpoint.cpp:~endpoint", "src/atbus_endpoint.cpp:reset"]}
{"id": "C104", "title": "Every iterator to a ping timer that an endpoint keeps points to its own timer", "statement": "As long as the application does not change HAS_PING_TIMER with set_flag and does not set the time with start inside proc: clear_ping_timer never erases a list node that is not in the list, an endpoint has exactly one timer if HAS_PING_TIMER is set and none otherwise, timers are only of endpoints that exist, after the clearing in node::reset no endpoint has one, and the protective code at the end of the ping loop, of which a comment says that it should never be reached, never is.", "quantifier": "all sequences of creation, reset and destruction of endpoints, setting and clearing of timers, proc, rounds of the ping loop and reset of the node, with all ping intervals and times", "why_tests_cant": "erasing a freed list node is undefined behaviour and mostly goes unnoticed; tests run few endpoints through few timers, and unreachable code cannot be tested", "anchors": ["src/atbus_endpoint.cpp:create", "src/atbus_endpoint.cpp:~endpoint", "src/atbus_endpoint.cpp:reset", "src/atbus_endpoint.cpp:set_flag", "src/atbus_endpoint.cpp:add_ping_timer", "src/atbus_endpoint.cpp:clear_ping_timer", "src/atbus_node.cpp:add_ping_timer", "src/atbus_node.cpp:remove_ping_timer", "src/atbus_node.cpp:proc", "src/atbus_node.cpp:start", "src/atbus_node.cpp:reset"]}
{"id": "C105", "title": "The creation time of an endpoint is one moment of its life and stays", "statement": "The seconds and microseconds that get_stat_created_time_sec and get_stat_created_time_usec give, in whatever order they are asked for, are the clock of the node at one moment at which the endpoint existed; an answer with positive seconds is given again for ever, whatever happens to the clock; and while start does not set the time after the construction, the answer is not before the construction and not after the present.", "quantifier": "all sequences of calls of proc and start with any times, constructions of endpoints and queries of any endpoints", "why_tests_cant": "needs every order of queries and changes of the clock; a test asks once and compares with one time", "anchors": ["src/atbus_endpoint.cpp:endpoint::get_stat_created_time_sec", "src/atbus_endpoint.cpp:endpoint::get_stat_created_time_usec", "src/atbus_endpoint.cpp:endpoint::stat_t::stat_t", "src/atbus_node.cpp:node::proc", "src/atbus_node.cpp:node::start", "src/atbus_node.cpp:node::get_timer_sec", "src/atbus_node.cpp:node::get_timer_usec"]}
