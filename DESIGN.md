# Design

Formal model of libatbus (pinned commit, source in /repo) in Lean 4.  The
source was read as text; it was not built or run.  Every model definition
carries a comment with the file and lines it follows.

## Layout

    lean/Verif/Basic.lean          shared types (bytes, error codes)
    lean/Verif/<Area>/Model.lean   executable model of the code
    lean/Verif/<Area>/Lemmas.lean  helper lemmas
    lean/Verif/<Area>/Props.lean   specification + property theorems + examples

Larger areas are split further: Mem has `Seq`, `Spec`, `Timeout`, `Attach`,
`Safe` and `DamageProps` parts, the interleaved model of the same code is
`Conc` (model), `ConcSpec` (assumptions and histories), `ConcActs`, `ConcInv`,
`ConcSend`, `ConcRecv`, `ConcRun` (invariant), `ConcTrack`, `ConcDead`,
`ConcTerm`, `ConcLedger` (progress), `ConcCount` (operation numbers), `ConcProps` and `ConcWrap` (theorems), `Progress` (accesses a sender makes); `Tso` is the same code on a machine with store buffers (`TsoSim`, `TsoRun`, `TsoStep`, `TsoMain`: every such run is a run of `Conc`; `TsoProps`), `Reorder` on a machine that may satisfy loads early (`ReorderSim`, `ReorderProps`); IoStream has a part `Goodbye` (closing without force); Node has parts `Stream` (both ends of a stream connection together) and `Lanes` (all stream connections with one endpoint); Buffer has a part `Mode` (changes of mode and limits, allocations, accessors); Endpoint has a part `Life` (resets with calls inside callbacks, destruction), IoStream has `Recv*` and `Send*` parts and
`Pool*` (connections, calls and closing with a re-entrant application: `Pool` is the model, `PoolSpec` the
specification, `PoolMic` splits each step into small changes, `PoolCore`, `PoolStep` and `PoolInv` the main invariant,
`PoolTok`, `PoolHist`, `PoolFlow` and `PoolEnd` further ones) and `Handles` (memory given to libuv: handles, their owners, loops; `HandlesDns`: also requests to resolve names), and every part of the node is a pair `lean/Verif/Node/<Part>.lean` (model) and
`<Part>Props.lean` (theorems): `Forward` (routing and data messages), `Tree` (networks of such nodes; `NetProps`: also networks that change), `SelfQueue`
and `SelfProps` (messages to oneself), `LifeCycle`/`LifeProps`/`LifeState`, `Peer` (faults,
pings), `Timer` (clock and timers), `Registry` (registration, tokens,
notifications), `Handshake` (two registering nodes), `Pipe` (push and poll over a memory channel), `Handler` (pointers kept across callbacks), `Heart` (ping timers and the counters they drive), `Waiting` (list of unfinished connections, calls inside callbacks), `Connect` (attempts, the parent), `Command` (custom commands, dispatch), `Mesh` (connections opened on registration), `Poll` (polling of memory channels), `Work` (results of `proc` and `poll`), `Link` (pointers between node and stream connections), `Collect` (garbage collection of endpoints), `PushStat` (push statistics), `Delay` (ping delay), `Loop` (settings and event loop), `Owner` (life of objects and node), `PingIter` (iterators to ping timers), `Created` (creation time of endpoints), `Sizes` (wire sizes and limits), `Avail` (availability of endpoints), `Reset` (resetting and initialising again), `Reenter` (calls back into the node from callbacks), `Listen` (listening and the file system), `RemoveProps` (removal from the registry of `Registry`), `RelayEnds` and `RelayRefused` (termination of the traffic of `Relay`), `PeerAddr` (addresses of accepted connections and of the parent), `IpAddr` (socket addresses from texts), `HostName` (host name and hash code), `Relay` (data messages over several nodes and streams: `RelayProps`, `RelayPath` one fixed way, `RelayTree` trees, `RelayAnswers` answers, `RelayReport` delivery or report in trees, by refinement of `Tree`, `RelayLive` the same in the end of every fair execution, `RelayExamples`). Subnet has a part `Order` (comparisons and sorts).

Property theorems are named `Cnn_...`.  A theorem that proves only part of a
property ends in `_partial`.  A theorem `Cnn_..._false` proves the negation of
the full property with a concrete witness: there the code violates it.

## Trusted base

* The Lean 4 kernel, and the axioms `propext`, `Classical.choice`,
  `Quot.sound` (checked with `#print axioms` on every property theorem).
  No own axioms, `sorry`, `native_decide` or `bv_decide`.
* The reading of the C++ code: the models are hand-written.
* Build constants of the default configuration (x86-64: `sizeof(size_t) = 8`,
  `sizeof(buffer_block) = 24`, `ATBUS_MACRO_DATA_ALIGN_SIZE = 16`,
  `ATBUS_MACRO_DATA_NODE_SIZE = 256`, `ATBUS_MACRO_DATA_SMALL_SIZE = 3072`).
  Where a theorem does not depend on the value, the value is a parameter.
* External parts are parameters with stated assumptions: murmur3 and FNV hash
  functions (arbitrary functions), SHA-256 access hash (arbitrary function),
  libuv (delivers the bytes written in order; completes each accepted write
  once), protobuf (messages are taken as already decoded), operating system
  shared memory calls, malloc (does not fail unless stated).

Findings recorded by `_false` theorems are listed per property below and in
`MANIFEST.json`.  Not covered by a theorem: the debug assertions of
`buffer.cpp` (lines 626, 667, 679, 718, 720, 754, 756) can fail in reachable
states because padding is only subadditive; the model follows the release build.

## Modelled / not modelled

Modelled, function by function, with the lines in the comments:

* `src/detail/buffer.cpp`: all of it.
* `src/channel_mem.cpp`: configuration, init, attach, send, receive, index
  arithmetic, counters, the report (sizes and node list), settings.
* `src/channel_shm.cpp`: names, open/close counting, attach, init, close; several
  processes with the segments of the system (`Shm/Share`).
* `src/channel_utility.cpp`: all of it.
* `src/channel_io_stream.cpp`: send, batching (`try_write`), write completion,
  read buffers, frame decoding; listening, resolving, connecting, accepting,
  disconnecting and closing with callbacks that may call back in (`Pool`).
* `src/atbus_endpoint.cpp`: subnet arithmetic and tables, binding of
  connections, choice of connections, traffic counters.
* `src/atbus_node.cpp`: routing table, next hop, messages to oneself, fault
  counters, life cycle, timers, polling of memory channels, collection of endpoints, access data, message sizes, sequence numbers.
* `src/atbus_msg_handler.cpp`: data transfer (also as a network of nodes, `Tree`), registration, ping/pong, custom commands
  (also as a network of nodes), dispatch, connections opened on registration, requests to
  connect directly.
* `src/atbus_connection.cpp`: states, push statistics, binding, callbacks of the stream channel and
  the life of connection objects (callbacks of the application inside `disconnect` only in C46, C74 and C75).

Not modelled: libuv itself (except the conversion of IPv4 addresses, C100), socket options, log output, statistics
printing, Windows branches, protobuf encoding other than the length of the
messages in C51, C++ object lifetimes beyond what is stated.

Memory order of the memory channel: `Conc` interleaves single accesses sequentially consistently.  `Tso` adds a first-in first-out
store buffer for each sender and for the receiver (as on x86).  It assumes that the compiler keeps the order of the accesses (the
node heads are volatile, the block heads and the data are not), and that the operations on the cursors are sequentially consistent
(`util::lock::atomic_int_type` is not in this repository; its default order is used), so that they empty the buffer.  `Reorder`
lets the reads of block heads and data be satisfied before the read of the flag.  Reordering of stores, and of loads of node heads,
is not modelled.

## Findings

Each `_false` theorem is a disagreement between the property and the code; the
note in `MANIFEST.json` says which.  Found while reading, reachable from the
outside or easy to hit, and worth a fix first:

* C22: a frame length near 2^64 makes the stream receiver read outside its
  buffer (fourteen bytes suffice).
* C44: `node::proc` does not return when an overdue endpoint's ping timer is
  followed by another due timer.
* C15: `mem_recv` checks the message size against the caller's buffer and reads
  the size again for the copy.  A sender that was delayed for longer than the
  write timeout can change it in between: the copy runs over the end of the
  buffer.
* C15: the write cursor has no generation count.  A sender that is delayed while
  the others go once around the ring reserves nodes that are in use; the ring then
  looks empty and messages reported as sent are lost.
* C15: a sender that is delayed before its last check until its node is used
  again sends its message a second time.
* C16: the sequence numbers of received messages stay in the nodes.  If a sender
  dies right after its reservation, a message that a live sender is just writing
  behind it can be dropped without waiting.
* C41: `ping_endpoint` writes to an endpoint that it has just removed.
* C40: `reset` called in a delivery callback destroys the list being walked.
* C35, C48: responses have no hop limit and can circulate for ever.
* C51: the receive buffer of memory channels (`msg_size + 96`,
  `atbus_node.cpp:215`) is smaller than what `send_msg` lets pass
  (`msg_size + 1024`); such a message stays at the head of the channel and every
  attempt to read it counts a fault.
* C50: the counter of a POSIX segment starts at 0 instead of 1, so a single user
  leaks it (or aborts with assertions) and of two users the first to close unmaps
  it.  All names that are not numbers and have no slash are one segment `0`.  Not
  in the model: the file descriptor is never closed, and `shmat` is not checked.
* C53: a push whose `uv_write` is refused is counted as failed and, later, as
  successful; a push of zero bytes is never counted; a bare `disconnect` loses
  the queued ones.
* C57: `io_stream_connection_on_close` keeps an iterator of a hash table over a
  callback (`channel_io_stream.cpp:664`); a disconnect made in the callback can
  rehash the table.  Disconnecting a connection twice loses the first callback.
* C58: `read_net_eagain_count` belongs to the channel and is never reset; after
  enough empty reads every further one closes the connection it happens on.
* C59: `io_stream_on_written_fn` reports success for a write that failed.
* C56: `io_stream_close` blocks for ever on a peer that does not read.
* C60: `node::connect` takes a call as already in progress if the address of any pending
  connection is a prefix: port 8080 is never connected while port 80 is pending; a
  refused `mem:` address leaves an entry without address, which blocks every connect until it
  times out; so does a peer that just connected over a unix socket, for unix addresses.
* C61: a connect call that fails at once leaves an entry that makes the following calls
  succeed without doing anything; when it times out a node that was not active yet shuts
  down, although the parent could be reached.
* C62: a custom command carries no target and is executed by the first node that receives
  it, so commands for nodes that are not neighbours are executed by the parent.  The
  application is not given the error code of an answer, and the sender is not checked.
* C63: answers to commands are handed to the application from any connection, without a
  token; so are pings and pongs.
* C64: a node that listens on a unix socket only counts itself as reachable from other hosts
  and waits for a peer that cannot connect.  An address `0.0.0.0` or `::` of another host is
  replaced by the own loopback address when connecting.
* C65: a node with a larger id than its children never tells them to connect directly,
  because it keeps only those of their addresses it connected to itself.
* C66: an address such as `memx://4096` passes the tests for streams and is opened as a memory
  channel at that place: any registered node can make another one write to any address of
  its memory.  So can a node that claims the same host and process.
* C67: the loop of `node::proc` over memory channels keeps an iterator of the table while messages
  are handled.  Closing the polled connection erases it; this happens without the application
  too, when a peer sends more messages that cannot be handled than faults are tolerated.
* C68: when the stream channel cannot accept a connection it calls the accept callback with a null
  pointer, which the callback uses.
* C68: attempts of a node to connect count against its limit of incoming connections.
* C69: an endpoint that loses its connections while the application is called back from a collection is
  neither collected nor pinged any more and stays registered for good.
* C69: a peer that reconnects before its old endpoint is collected is accepted and then closed and
  removed by the collection, or stays but is never pinged again.
* C69: when one listener of a node fails, all others are closed as well, without notice to the
  application, and a new one opened before the next collection is closed by it.
* C70: a channel is opened by attaching and, if that fails for any reason, initialising.  Messages in
  it are destroyed when a process of another build opens it, when attaching fails for a passing
  reason, and when two processes open a new channel at the same time.
* C70: numbers of memory channels are used modulo 2^32; a multiple of 2^32 is `IPC_PRIVATE`, which
  every process has for itself.
* C70: a process with two connections to one POSIX name unmaps it and removes the name when it
  closes one of them.
* C71: a forwarding node that does not have the target in its range answers for it.  The sender gets
  two answers, and one that reports success for a node that does not exist.
* C71: when the connection to a node known directly is lost, messages of others take the way over
  the parent, but the node's own messages are refused and answers are lost.
* C72: a message that a stream connection refused stays in its buffer and may be sent later (see C24).  The forwarding node
  takes the refusal for a failure: it sends the message to its parent as well, so that it is delivered twice, or reports a
  failure to the sender, or `send_data` returns an error, while the message is delivered.
* C73: a node with id 0 that connects to another node is never established there;
  its connection stays on the list of unfinished connections and is closed after
  `first_idle_timeout`, although the temporary node regards it as established.
* C74: `proc` compares the iterator of an erased list node with `begin()`.  If the allocator gives its address to a connection
  made in the callbacks meanwhile, that connection is reported as timed out at once and its entry is erased behind its back;
  resetting it later erases a freed node.
* C74: resetting the connection in `on_error` of its timeout leaves `proc` with the iterator of a freed node; calling `proc` in
  `on_invalid_connection` reports a connection twice and erases its entry twice.
* C74: a connection made in the callbacks of the later part of `node::reset` stays on the list of the node that was reset.
* C75: an application that, in a callback made while a data connection of an endpoint is being reset (`on_invalid_connection`,
  `on_close_connection`), resets that endpoint (`node::disconnect`) or its control connection, clears the endpoint while the
  connection keeps its pointer to it: the nested reset of the connection returns at once (`atbus_connection.cpp:99-101`) and the
  endpoint drops it.  If the endpoint object is collected before the callback returns the outer reset calls a function of a
  destroyed object; otherwise the connection keeps a pointer to an endpoint that has no reference to it
  (`assert(NULL == binding_)` in debug builds).
* C76: `connection::reset` clears the counters of the connection, so the totals of a living endpoint drop when one of its data
  connections is lost; rates computed from two readings become negative.  What is received through memory channels is counted
  for the node's own endpoint, because the receiving connection is bound to it.
* C77: `node::proc` adds the (negative) error codes of memory channels to the number of messages.  Messages may have been handled
  although the result is negative, or zero, which tells the application that it may sleep.
* C78: `read_bad_block_count` counts write timeouts only, not blocks dropped for a wrong size or number of nodes.
  `mem_show_channel` multiplies by the number of nodes where it means their size: a fresh channel of 1000 nodes is
  printed as using 2^64 - 736000 bytes.
* C79: a message that the sender's channel accepts but that is longer than the static buffer of the receiving node is
  never received: every poll fails with BUFF_LIMIT, after `fault_tolerant` + 1 polls the receiving connection is closed,
  and the pushes of the other node still succeed until the channel is full.
* C79: messages that cannot be unpacked are dropped without counting as a fault of the connection.
* C80: a new endpoint that `add_endpoint` refuses (`src/atbus_msg_handler.cpp:909-914`: a second parent, overlapping subnets) is
  destroyed at the `break` and the pointer to it given to `on_error` after the answer is sent (`:994`); no action of the application is
  needed.  A peer can cause it.
* C80: `remove_endpoint` destroys the endpoint at once; an application that calls it in `on_pong`, `on_register`, `on_error` or the log
  makes the handlers of pongs, registrations and forwarded data use a destroyed endpoint.  `disconnect` and the resets are safe.
* C80: the loop over a memory channel and the error path of `on_recv` use the connection after a callback without holding it; resetting it
  and running the node inside the callback destroys it.
* C81: the comment at `src/atbus_node.cpp:146` promises that the default configuration finds a dead peer in at most 24 seconds (three pings
  without an answer); the fault is only counted with the next ping, so it takes up to 32 (33 for the parent, whose timer is compared with `<`).
  A temporary node (id 0) and a node with `ping_interval <= 0` never find a dead peer.  With `fault_tolerant` 0 or 1 two faults counted in one
  call remove a peer that talks.  A parent without control connection is not pinged at all.
* C81: `created_time_sec` of an endpoint is not set when it is created but when it is asked for first (`src/atbus_endpoint.cpp:670-678`), and
  only `proc` asks, for endpoints that are not available.  `first_idle_timeout` so counts from the first visit of the ping loop that finds no
  usable connections and not from the registration.
* C15: operation numbers are taken before the test whether the channel is full (`channel_mem.cpp:551`, `563`), so refused calls
  use them up and they repeat in a channel of any size, against the comment in 706-708; a message that was reported as sent is
  lost when its number is still in a node that another sender has just reserved.
* C15: the receiver's only fence (`channel_mem.cpp:836`) comes after the reads of `buffer_size` in 777-790.  A machine that
  reorders loads (or a compiler: the block head is not volatile) may satisfy these before the read of the flag in 712; the receiver
  then sees an old size, reports a damaged block and drops a message that was sent.  With a fence after 712 the property holds.
* C84: a node with id 0 reports every registered endpoint as available, also
  when there is no connection to it (`0 == get_id() ||`, line 1142); sending
  then reports EN_ATBUS_ERR_ATNODE_NO_CONNECTION.
* C85: `reset` keeps `parent_opr_time_point`, so a node that is reset and
  initialised again connects to its parent at the next `proc`, before `start`.
* C85: `remove_collection` relies on the destruction of the endpoints.  If the
  application holds one and pings are switched off, its connections stay open
  and refer to the destroyed channel.
* C85: `reset` never returns if the application connects again in the callback
  that reports the end of a connection; `init` called in such a callback
  reports success and is undone by the rest of `reset`.
* C86: `set_mode` has no result: if the allocation of the static area fails the
  manager is in dynamic mode without limits.  With `max_number` = SIZE_MAX the
  ring has no entries and the first push divides by zero.  `set_limit` accepts
  limits below what the manager holds.
* C87: `connection::push` returns an error when `uv_write` refuses the request, but the message
  stays in the queue and is sent with the next one (`C87_refused_false`).  A caller that
  sends again after the error sends twice.
* C87: a comment in `iostream_on_recv_cb` says messages received together with the
  one whose handler closed the connection are still processed; they are dropped,
  although their push and write reported success.
* C88: data messages go over the control connection until a data connection is
  usable; the first ones over the data connection can overtake them.
* C89: PARENT_REG_DONE is never cleared before a reset, so after a lost parent the
  node is RUNNING again when the parent's endpoint is added, before the new registration is
  answered.  `shutdown` on a node that was not initialised sets a flag that `init` keeps; the
  first `proc` or `poll` after the start resets the node.  `start` and `proc` set the state after
  `connect`, so an `init` inside a callback of `connect` is overwritten.
* C90: `connection::listen` removes the file that the host part of the address names for every
  scheme except `mem` and `shm`: listening to `dns://data:80` deletes `./data`, and an address with
  an unknown scheme deletes the file and is then refused.  A relative unix path is made absolute in
  `address_.host` only; `address_.address`, which is announced to the peers, stays relative, so the
  stated purpose (connecting from other directories) is not reached.  The test is `<=` where
  `io_stream_listen` requires `<`: an absolute form of exactly 108 characters replaces a relative
  path that would fit, and is refused.
* C91: when `uv_write` fails at once, `connection::push` reports the error although the message
  stays in the queue of the stream; `forward_data_message` then also sends it to the parent, and
  the target gets it twice.  When the queue of a direct connection is full, single messages take
  the way over the parent and are overtaken by later ones.  Nothing in a data message lets the
  receiver put this right: there is no check of `sequence` on reception.
* C92: a peer may claim a subnet inside another of its own subnets.  When a second peer then claims
  an id between the two ends, the first one is still registered and gets messages, but
  `get_endpoint`, `disconnect` and `remove_endpoint` do not find it.  A peer with the node's own id
  is accepted as a child, but `remove_endpoint` refuses to remove it.
* C94: `io_stream_tcp_connection_cb` passes `sin_port` to `make_address` without `ntohs`, so the port of
  an accepted connection is recorded with its bytes swapped.  The result of `uv_tcp_getpeername` is ignored,
  and `sock_addr` is read uninitialised if the client is gone.  `io_stream_pipe_connection_cb` asks for the
  name of its own socket with the size 0 left by the first call, so unnamed clients are all called `unix://`.
  Whether a connection is the one to the parent is decided by comparing address texts: an accepted connection
  from the parent's host and the parent's port with swapped bytes is taken for it, and closing it shuts
  down a node that waits for its parent (no token needed).  Ports are used modulo 65536.
* C95: `node::init` copies the host name into the endpoint of the node, `send_reg` sends the name of the
  moment; after `set_hostname(.., true)` in between they differ, and `get_data_connection` (which compares the
  copies) and `on_recv_node_reg_req` (which compares with the current name) disagree on who is on the same
  host.  An empty name (no external address, `gethostname` fails) is compared like any other.
  `init_hash_code` writes addresses and name one after the other without separators.
* C96: a node that passes a message on to a node that is not below it answers success itself when an answer is
  asked for, so the sender is told that the message has arrived before it has, and again when it has
  (`C96_twice_false`).  When the write to the next node is refused, the sender is told that the message failed,
  but it stays in the queue of the stream and is delivered with the next write (`C96_lie_false`).
* C97: on a loop of the application `io_stream_close` waits for connections and requests only.  The handle of a
  connection that was refused at once may still be closing when it returns; it and the data of its request are freed
  only if the application runs the loop again (`C97_close_false`).  `io_stream_run` returns `EN_ATBUS_ERR_EV_RUN` whenever
  a handle is open, so with a listening channel it never returns success (`C97_run`).
* C98 (see also C78): `mem_show_channel` prints as used size `(node_size - available) * node_count` and as free size
  `available * node_count`, where node size and count are exchanged.  Both are wrong unless nothing is available or the
  ring has exactly 256 nodes (`C98_figures_partial`); with more than 256 available nodes the used size wraps and is larger
  than the whole buffer (`C98_used_false`): an empty channel of 1 MiB is reported to use 18446744073695908096 bytes.
  `mem_configure_set_write_retry_times(channel, 0)` is accepted and makes every send report success and send nothing
  (`C98_retry_zero_false`).
* C105: the creation time is the time of the first query, so the elder of two endpoints can have the later one (`C105_creation_false`);
  `start` can set the clock to before it (`C105_start_false`).
* C104: the protective `ping_list.pop_front()` in `proc` does not clear `HAS_PING_TIMER` of the endpoint.  If a callback sets the time
  back with `start`, it removes the timer just set, and the next `clear_ping_timer` erases a freed list node (`C104_start_false`).  The
  public `set_flag` accepts `HAS_PING_TIMER`, with which the application can get a second timer set (`C104_flag_false`).
* C103: `owner_` of a connection or endpoint is never cleared, and both destructors use it.  A pointer from `watch()` or `create`
  that the application gives back after the node's end uses freed memory (`C103_kept_false`).  A connection that is made in a callback
  (for example `on_error`) while `reset` runs the loop for unfinished operations is left in `connecting_list`; `~node` does not reset
  again, and the destructor of the list runs `~connection`, which erases from the list (`C103_late_false`).
* C102: `get_iostream_channel` is public and may be called before `init`, when `get_evloop` has none to give.  The channel then
  makes its own loop at the first operation, `init` keeps the channel and its default limits, and `reset` waits for unfinished
  operations by running the loop of the node, on which they are not: it never ends (`C102_hang_false`, `C102_settings_false`).
  Between `reset` and `init` the channel gets the loop of the life before (`C102_old_loop_false`).
* C101: `on_recv_node_pong` compares the sequence number with that of the unanswered ping without looking whether there is one
  (0), so a pong with number 0 counts at any time (`C101_unasked_false`), and its time point is subtracted unchecked: the
  smallest one makes the subtraction overflow (`C101_overflow_false`).  `proc` does not normalise microseconds, of which only
  the milliseconds below a second are used, so the delay can be negative (`C101_negative_false`).  `on_pong` is called with
  `m.node_ping_req()`, which a pong does not have (`C101_callback_false`).
* C100: `io_stream_listen` and `io_stream_connect` do not look at the results of `uv_ip4_addr` and `uv_ip6_addr`.  A host with
  a slip (`127.0.0.256`, `127.0.0.01`, a name, an IPv6 address in brackets) is not refused: the node listens on all addresses
  of the machine instead of one, or connects to its own machine, and the call succeeds (`C100_host_false`, `C100_brackets_false`).
* C99: nothing stops a reset from beginning inside a callback: `reset` looks at RESETTING only, and `proc` and `poll` call
  it when SHUTDOWN is set.  So `shutdown` and then `proc` in a callback of a stream (with `poll` below) run into the `abort()`
  of `io_stream_close` (`C99_abort_false`); `shutdown` and `poll` in a callback of `proc` free the static buffer and clear the
  table whose iterator `proc` still uses (`C99_freed_false`); and a reset while a message to oneself is handled clears the
  list whose front is then removed (`C99_pop_false`).  The last needs no shutdown in a callback: after a `shutdown` outside,
  `poll` in the callback is enough.  `reset` also clears all flags, so `proc` can be entered twice (`C99_once_false`).
* C37: the answer to a refused registration contains valid access data, which
  can be sent back to the node.
* C49: a peer that claims the node's own id is accepted.
* C30-C33: nested subnets and several ranges starting at id 0 break lookup.

Seen while reading, not covered by a theorem: `on_pong` hands the ping field of
the message to the application instead of the pong field; `disconnect(parent)` does not
set the lost-parent state.

## Per property

| id | model and proof |
|----|-----------------|
| C01 | `read_vint`/`write_vint` as list functions over bytes with 64-bit truncation; round trip by induction on 7-bit groups |
| C02 | same model; number of groups defined arithmetically; both directions |
| C03 | same model; prefix lemma for the reader |
| C04 | dynamic manager as list of blocks with raw bytes and consumed count, run against an abstract deque; induction over operation lists |
| C05 | static manager with explicit offsets, index ring and one byte-addressed memory whose cells hold header or payload; invariant by induction over operations |
| C06 | refinement of the static manager to the deque, payload read back from the memory cells |
| C07 | counters are part of both managers; invariant |
| C08 | corollary of the refinement theorems, stated on observable blocks |
| C09 | emptied ring is layout-equal to a fresh one for pushes |
| C10 | 64-bit size arithmetic; false near 2^64 (witness), partial theorem below |
| C11 | offsets as naturals; arithmetic proof for all lengths |
| C12 | sequential model of send/recv over the ring; refinement to a list queue |
| C13 | corollary of C12 model: success iff enough free nodes |
| C14 | corollary of C12 model |
| C15 | small-step model, any number of senders and one receiver, one shared access per step, sequentially consistent; inductive invariant with ghost state (log of reservations, accesses made for each, memory when it was made) relating the ring to the log; the assumptions are the predicates `SizeOK`, `NumberOK`, `NoLap`, `StopLate`, `GiveUp`, `Prompt` of `ConcSpec`, and for the last five a run that violates only that one falsifies the property (`NumberOK` holds as long as the 32-bit counter has not wrapped, and may hold afterwards); a call of `mem_recv` returns after a bounded number of steps without any assumption; forward simulation of a store-buffer machine by the interleaved model; counterexample on a machine that reorders loads, and the fence that would repair it |
| C16 | same model with senders that stop for ever; exact content of what is received, behaviour before and after the write timeout; early stop counterexample; store-buffer machine |
| C17 | timeout bookkeeping part of the receive loop |
| C18 | channel head fields as a record over arbitrary memory |
| C19 | receive loop on arbitrary ring contents; every access is checked, out-of-range is a separate outcome shown unreachable; every node passed is blank again |
| C20 | decoder as a step function on (head buffer, pending large block); equality with whole-stream parse for all chunkings |
| C21 | sender queue model composed with C20; false when uv_write refuses a request (witness), then a prefix of what was queued |
| C22 | decoder with 64-bit length arithmetic and checked reads; false (witness frame), partial theorem for lengths that do not wrap, and exactly the runs that go wrong |
| C23 | decoder model with counters; the callbacks of a run up to the point where it becomes undefined |
| C24 | sender queue model with callback trace |
| C25 | static manager model of C05, drain-and-push-front lemma |
| C26 | strings as character lists; parse/format |
| C27 | same |
| C28 | ids as naturals below 2^64; int shift for wide masks modelled as undefined outcome |
| C29 | list model of sort + merge; set equality for all lists; no-overlap part false (witness) |
| C30 | list model; completeness false (witnesses), soundness proved |
| C31 | sorted table model with lower_bound; false for nested leftovers (witness), partial for disjoint tables |
| C32 | same; false for ranges starting at 0 (witness), partial otherwise |
| C33 | add/remove histories over the table model |
| C34 | decision function over an abstract node state |
| C35 | network of arbitrary nodes with arbitrary next-hop functions; bound by induction on remaining ttl |
| C36 | decision function |
| C37 | abstract hash; gate proved; replay of observed data shown as counterexample to the strong reading |
| C38 | handler model; false on the unsupported-version path (witness), partial otherwise |
| C39 | 64-bit counter |
| C40 | self-message queue with callbacks modelled as arbitrary programs that may send |
| C41 | counter automaton |
| C42 | life-cycle automaton |
| C43 | timer list model |
| C44 | ping loop as a step relation; non-termination witness and partial theorem |
| C45 | ping automaton |
| C46 | binding model with finite maps; invariant over histories |
| C47 | selection function; false for process-local class (witness), partial |
| C48 | chain of nodes; false (witness), partial |
| C49 | registration decision; own-id claim false (witness), partial |
| C50 | table of records with 64-bit counters, environment chooses results of system calls; users counted from return values, mappings from events; false for path names (witnesses and exact law), partial for numeric keys |
| C51 | wire lengths of the messages as the protobuf encoding defines them, limits of sender and receivers; composed with C21; false for memory channels (witnesses) |
| C52 | callback trace of add/remove/reset; false for multi-subnet endpoints on reset (witness), partial |
| C54 | same model as C26 with throw and undefined outcomes; false (witnesses), partial for other texts |
| C53 | counters over the stream sender model of C24; exact law for all runs, false on refused write, empty push and bare disconnect (witnesses), partial |
| C55 | stream channel as a step function over calls, libuv reports and callback returns, with a stack of suspended functions; counting invariant per call |
| C56 | same model; a measure decreases with every report while the channel closes; enabledness from the invariants; false for stalled peers (witness) |
| C57 | same model; invariant over the log; false with a rehash and for disconnect callbacks (witnesses), partial otherwise |
| C58 | same model; frame lemma for every function; false for the shared counter (witness), partial otherwise |
| C59 | same model; ghost flag of what libuv wrote; false for failed writes (witness), partial otherwise |
| C60 | list of pending connections with address texts, decision of connect; invariant over all histories; false for prefixes, left entries and incoming connections (witnesses), partial otherwise |
| C61 | same model with the clock and the parent's timer; invariant bounding the next operation from both sides; false for nodes not yet active (witnesses), partial |
| C62 | network of nodes with messages under way, routing state free at every step; counting invariant per call plus provenance of every message and event; false for indirect targets, answers and senders (witnesses), partial |
| C63 | dispatch of every kind of message by the state of the connection; case analysis; false for answers, commands without tokens, ping, pong |
| C64 | loop over the addresses of a registration; exact set of connections by induction over the list; rule for a pair of nodes derived; false for unix sockets of other hosts and any-interface addresses (witnesses), partial |
| C65 | choice of the address on top of C64; exact condition for a request; false for larger ids and any-interface addresses, partial |
| C66 | texts of addresses, classification and parsing; composed with C64 and the connect of C60; false for disguised schemes and claimed identities (witnesses for every place in memory), partial |
| C67 | table in the order of iteration, iterator as a position, receive results and handler actions free; invariant that splits the table at the iterator; measure for the end; false for erased and rehashed iterators and addresses listened on twice (witnesses), partial |
| C68 | two kinds of objects with pointers, reference holders as flags, callbacks with free application resets; invariant over pairs; false for failed accepts, reused objects, late successes (witnesses), partial |
| C69 | endpoint objects with holders (destroyed when nothing holds them), collection split into steps with anything in between; invariants over all histories, exact effect of an undisturbed collection; false for resets inside a collection, the own id, quick reconnection, failed listeners (witnesses), partial |
| C70 | processes with tables, segments of the system by key, mappings; specification is one queue per name; invariant with lemmas for changes elsewhere; system calls fail freely; false for other builds, races, passing failures, keys modulo 2^32, POSIX names (witnesses), partial |
| C71 | network of forwarding nodes, messages under way in any order; specification is the list of accepted calls; conservation of what is due, distance in trees, potential for termination; side connections may be lost; false for the number of answers and over lost connections (witnesses), partial |
| C72 | networks that change between any two steps, with losses; conservation: deliveries and reports of failure are part of the accepted calls, each call at most once; false if a refused write is sent later (witness), partial |
| C73 | two registries and two queues between them, both run the code of C37/C49; anything else may happen on either node, the connection may break; invariant says what each open end still waits for; potential for termination; false for temporary nodes (witness), partial |
| C74 | list with addresses, calls that are not finished as a stack of frames; the application may call anything where it has control; invariant over list, iterators and frames; potential for termination; conditions on the application (witnesses without them), partial |
| C75 | connections and endpoints with a stack of running calls; the application may call anything where it has control; invariant with exemptions inside a step; potential for termination; conditions on the application (witnesses without them), partial |
| C76 | endpoint model of C46 with counters; specification is the list of what a connection exchanged; false when a connection is lost (witness), partial |
| C77 | polling loop of C67 with its results and the list of messages; false for `node::proc` after an error (witnesses), partial |
| C78 | receive and send of C12/C19 with their counters (proved to be the same functions); conservation of nodes over histories with damage; false for the count of bad blocks and the printed sizes (witnesses), partial |
| C79 | pushes and polls over the channel of C12 with the loop of `mem_proc_fn` and `on_recv`; the queue of C12 as invariant; arrival for messages that fit the receiver's buffer, blocking theorem otherwise (witness), partial |
| C80 | every path of the handlers as a list of uses of pointers and callbacks; static check of paths proved sound against all actions of the application (strict: nothing known after a callback; gentle: no removal of endpoints in use, no nested run); witnesses for the unsafe paths, partial |
| C81 | ping counters of `Peer` driven by the timers of `proc`; invariant (timers later than the clock, no more faults than tolerated) and a potential (pings left until removal) that falls with every ping; forward invariant for the other direction; witnesses, partial |
| C82 | potential over the position of a sender in `Conc` (accesses left), falls with every access of its own, grows by at most two when another sender takes an operation number or reserves nodes; from every state |
| C83 | the comparison operators as functions on ranges and on the fields of a connection; strict weak order; sorted permutations of the same list are equal (for connections: stable ones) |
| C84 | `is_endpoint_available` over the routing model of C34; equivalence with a connection of that endpoint, and agreement with the routing decision; witness for id 0, partial |
| C85 | `reset` in the order of the code with an application step at every callback; a relation 'only gets smaller' closed under all steps, the loops end by the length of their lists; comparison with a new node; witnesses, partial |
| C86 | the whole `buffer_manager` over a ledger of live allocations; every dynamic call simulates the model of C04, every static one that of C05, the ledger is a permutation of the blocks owned |
| C87 | sender and receiver streams composed; invariant: some history of each half leads to the state, so C20/C21 apply; messages handed to the node are an initial part of those queued (accepted, if no write is refused); potential of queued blocks and unread bytes |
| C88 | family of streams of C87 under the connection choice of C47; records of sends and arrivals filtered by stream are those of each stream; the choice is idempotent; stream numbers stay below the next free one (C88_own) |
| C89 | invariant of state, ACTIVED, PARENT_REG_DONE and configuration over calls nested to any depth; what a call keeps (RESETTING; id and address unless `init` is called) |
| C90 | file system as a list of absolute paths, any sequence of calls, any working directory; what one call does, then induction; four witnesses, partial |
| C91 | C36 handlers and C87 streams together, any number of nodes and streams, records of what is queued, handled and delivered; invariant relating queue of one stream to what was handled from the one before; the way in a tree from C71; three witnesses, partial |
| C92 | registry model of C49/C69, invariant reused; the entry found by lower_bound is the one with the id; two witnesses, partial |
| C93 | relay model of C91; lexicographic measure: work owed by queued messages (hop limit left, height of the stream for answers), then bytes and blocks left in the streams (C87); with refused writes each hop can double the work; partial |
| C94 | names as texts (C26) of a family, an IP address and the stored bytes of the port; the size argument of the libuv calls for names; composed with `on_disconnect` of the life cycle model (C42); partial |
| C95 | the interfaces, `gethostname` and the table of hex digits as parameters of every call; the buffer of the process as state; the bytes given to SHA-256, not the hash |
| C96 | as C91; an answer shown to an application is a `response` effect of a handler; messages are compared without hop count, router list and return code |
| C97 | libuv as environment: a connect request is reported once, a handle given to `uv_close` once, in any order, with any result; objects and handles are numbers with a counter of shared pointers, freeing is a flag; calls of the application are between callbacks |
| C98 | calls do not overlap; the numbers and bytes of the report, not the text; `dumphex` of the utility library is the bytes it is given; version, align and host size and the debug variables left out; figures for fewer than 2^32 nodes (1 TiB) |
| C99 | the flags, the calls that are not finished and the number of messages to oneself; what the network, timers and channels cause is free (any number of callbacks wherever the code may make one); connections and endpoints left out (C67, C74); `on_debug` left out; messages to oneself are one count for data and commands |
| C100 | the loop of libuv's `inet_pton4` (not in this repository) over characters, proved to accept exactly the dotted quads of a declarative specification; socket address of a text through C26; IPv6 syntax a parameter; partial |
| C101 | one endpoint; the clock, the unanswered ping and the messages on their way, which may be lost and overtake each other; signed arithmetic with overflow as undefined behaviour; pongs the other end makes up are events of their own; fault counters are in `Verif.Node.Peer`; partial |
| C102 | all fields of the settings; `ev_loop_`, the channel with its settings and loop, and the number of unfinished stream operations; running the right loop finishes them (assumed of libuv), running another never does; build options have their defaults; partial |
| C103 | who holds pointers to connections and endpoints (lists of the node, unfinished operations, `self_`, the application), `reset`, `~node` with the order of its members; connections and endpoints are both objects, calls inside destructors are left out; partial |
| C104 | `ping_list` with addresses of list nodes, `ping_timer_`, `HAS_PING_TIMER`, `RESETTING`, the time, the end of the body of the ping loop; which endpoints are pinged is C44; partial |
| C105 | clock of the node and `created_time_sec`, `created_time_usec` of numbered endpoints; destruction of endpoints is not modelled; invariants by induction over the calls, witnesses, partial |
