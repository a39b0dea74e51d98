{
 "claims": [
  {
   "property": "C01",
   "status": "proved",
   "theorems": [
    "Verif.Vint.C01_vint_round_trip",
    "Verif.Vint.C01_vint_ten_bytes_suffice"
   ],
   "note": ""
  },
  {
   "property": "C02",
   "status": "proved",
   "theorems": [
    "Verif.Vint.C02_vint_write_bounds",
    "Verif.Vint.C02_vint_length_independent"
   ],
   "note": ""
  },
  {
   "property": "C03",
   "status": "proved",
   "theorems": [
    "Verif.Vint.C03_vint_read_consumes",
    "Verif.Vint.C03_vint_read_incomplete",
    "Verif.Vint.C03_vint_read_prefix_only",
    "Verif.Vint.C03_vint_truncated_fails",
    "Verif.Vint.C03_vint_prefix_free"
   ],
   "note": ""
  },
  {
   "property": "C04",
   "status": "proved",
   "theorems": [
    "Verif.Buffer.C04_dynamic_deque"
   ],
   "note": ""
  },
  {
   "property": "C05",
   "status": "proved",
   "theorems": [
    "Verif.Buffer.C05_static_no_ub",
    "Verif.Buffer.C05_static_layout"
   ],
   "note": ""
  },
  {
   "property": "C06",
   "status": "proved",
   "theorems": [
    "Verif.Buffer.C06_static_deque",
    "Verif.Buffer.C06_static_results",
    "Verif.Buffer.C06_static_push_pointer"
   ],
   "note": ""
  },
  {
   "property": "C07",
   "status": "partial",
   "theorems": [
    "Verif.Buffer.C07_dynamic_counters",
    "Verif.Buffer.C07_dynamic_refusal",
    "Verif.Buffer.C07_static_counters",
    "Verif.Buffer.C07_static_limit_refused",
    "Verif.Buffer.C07_static_refusal_false"
   ],
   "note": "Counters and limits hold in both modes, and in dynamic mode a call is refused exactly when a limit would be exceeded. In static mode the limit error is also returned when the ring has no contiguous room although both limits would hold (witness C07_static_refusal_false), so that half of the statement is false for static mode."
  },
  {
   "property": "C08",
   "status": "proved",
   "theorems": [
    "Verif.Buffer.C08_dynamic_merge",
    "Verif.Buffer.C08_static_merge_back",
    "Verif.Buffer.C08_static_merge_front",
    "Verif.Buffer.C08_static_merge_pointer"
   ],
   "note": ""
  },
  {
   "property": "C09",
   "status": "proved",
   "theorems": [
    "Verif.Buffer.C09_drained_like_fresh"
   ],
   "note": ""
  },
  {
   "property": "C10",
   "status": "partial",
   "theorems": [
    "Verif.Buffer.C10_huge_push_false",
    "Verif.Buffer.C10_push_allocates_partial",
    "Verif.Buffer.C10_limited_push_partial"
   ],
   "note": "False as stated: the size computation wraps around for sizes above 2^64-48 and a push without limits reports success after allocating 32 bytes (witness). Proved for sizes up to 2^64-48, and for every size on an empty manager with a size limit up to 2^64-48."
  },
  {
   "property": "C11",
   "status": "proved",
   "theorems": [
    "Verif.Mem.C11_geometry",
    "Verif.Mem.C11_nodes"
   ],
   "note": ""
  },
  {
   "property": "C12",
   "status": "partial",
   "theorems": [
    "Verif.Mem.C12_refines_queue_partial",
    "Verif.Mem.C12_exactly_once_partial",
    "Verif.Mem.C12_default_partial",
    "Verif.Mem.C12_numbers",
    "Verif.Mem.C12_empty_message_false",
    "Verif.Mem.C12_caller_conf_false"
   ],
   "note": "Refinement to a bounded queue for every call sequence and every usable configuration (proved usable: the one mem_init chooses, for all memory lengths). Missing: the empty message, whose send reports success and is dropped (C12_empty_message_false), and unchecked configurations supplied by the caller (C12_caller_conf_false)."
  },
  {
   "property": "C13",
   "status": "partial",
   "theorems": [
    "Verif.Mem.C13_accept_iff",
    "Verif.Mem.C13_refused_no_effect",
    "Verif.Mem.C13_retry_zero_false"
   ],
   "note": "Proved for every usable configuration. A caller's configuration with zero write attempts reports success without sending (C13_retry_zero_false)."
  },
  {
   "property": "C14",
   "status": "proved",
   "theorems": [
    "Verif.Mem.C14_small_buffer"
   ],
   "note": ""
  },
  {
   "property": "C15",
   "status": "partial",
   "theorems": [
    "Verif.Mem.Conc.C15_received_partial",
    "Verif.Mem.Conc.C15_sent_partial",
    "Verif.Mem.Conc.C15_next_partial",
    "Verif.Mem.Conc.C15_recv_returns",
    "Verif.Mem.Conc.C15_numbers",
    "Verif.Mem.Conc.C15_aba_false",
    "Verif.Mem.Conc.C15_duplicate_false",
    "Verif.Mem.Conc.C15_slow_sender_false",
    "Verif.Mem.Conc.C15_overrun_false",
    "Verif.Mem.Conc.C15_wrap_false",
    "Verif.Mem.Reorder.C15_reorder_false",
    "Verif.Mem.Reorder.C15_reorder_partial",
    "Verif.Mem.Reorder.C15_reorder_allows",
    "Verif.Mem.Tso.C15_tso_numbers",
    "Verif.Mem.Tso.C15_tso_received_partial",
    "Verif.Mem.Tso.C15_tso_sent_partial",
    "Verif.Mem.Tso.C15_tso_next_partial"
   ],
   "note": "Proved for every run of the interleaved model (sequential consistency, one shared access per step, any number of senders) that satisfies the stated assumptions; termination of mem_recv without any. False otherwise: a write cursor that went once around the ring (C15_aba_false), a sender delayed before its last check (C15_duplicate_false) or for longer than the write timeout (C15_slow_sender_false, C15_overrun_false: the copy runs over the caller's buffer), an operation number that a node still carries, which refused calls make possible in any channel after 2^32-1 calls (C15_wrap_false; C15_numbers: not before). The same theorems hold with store buffers (C15_tso_*). On a machine that reorders loads the property is false, because the receiver's fence comes after its first reads of the size (C15_reorder_false); it holds if these reads come after the read of the flag (C15_reorder_partial)."
  },
  {
   "property": "C16",
   "status": "partial",
   "theorems": [
    "Verif.Mem.Conc.C16_received_partial",
    "Verif.Mem.Conc.C16_wait_partial",
    "Verif.Mem.Conc.C16_pass_partial",
    "Verif.Mem.Conc.C16_early_stop_false",
    "Verif.Mem.Tso.C16_tso_received_partial"
   ],
   "note": "Proved for senders that stop before their reservation or after they have marked their nodes. False for a stop in between (C16_early_stop_false: a live sender's message is dropped). Also with store buffers (C16_tso_received_partial). Missing: the same as for C15."
  },
  {
   "property": "C17",
   "status": "partial",
   "theorems": [
    "Verif.Mem.C17_timeout_partial",
    "Verif.Mem.C17_finished_kept",
    "Verif.Mem.C17_clock_back_false",
    "Verif.Mem.C17_second_message_false"
   ],
   "note": "Proved for the message at the receiver's position with a monotone clock; a finished message is never abandoned. False for a clock that goes back (C17_clock_back_false) and for a message behind the abandoned one whose stale sequence number matches (C17_second_message_false)."
  },
  {
   "property": "C18",
   "status": "partial",
   "theorems": [
    "Verif.Mem.C18_attach_after_init",
    "Verif.Mem.C18_attach_partial",
    "Verif.Mem.C18_lower_case_false",
    "Verif.Mem.C18_shorter_length_false"
   ],
   "note": "Attach after init proved for all contents and lengths; exact result table for all memory. The magic is compared ignoring letter case (C18_lower_case_false), and a length shorter than the one used to initialise is accepted (C18_shorter_length_false)."
  },
  {
   "property": "C19",
   "status": "partial",
   "theorems": [
    "Verif.Mem.C19_damaged",
    "Verif.Mem.C19_caller_conf_false",
    "Verif.Mem.C19_blank"
   ],
   "note": "Proved for all contents with in-range cursors and a protected size not larger than the ring (the configuration mem_init chooses). With a larger protected size supplied by a caller the receiver leaves the ring (C19_caller_conf_false)."
  },
  {
   "property": "C20",
   "status": "proved",
   "theorems": [
    "Verif.IoStream.C20_chunks",
    "Verif.IoStream.C20_any_bytes",
    "Verif.IoStream.C20_two_splits"
   ],
   "note": "C20_chunks is the statement: every list of messages within the receiver's limits, every split. Beyond it, for arbitrary bytes: callbacks and fate are a function of the stream while the connection is open (C20_any_bytes, C20_two_splits); after a fatal frame the number of further callbacks depends on the pieces, and the read buffer must hold frames that fit the head buffer."
  },
  {
   "property": "C21",
   "status": "partial",
   "theorems": [
    "Verif.IoStream.C21_graceful_partial",
    "Verif.IoStream.C21_any_write",
    "Verif.IoStream.C21_end_to_end_partial",
    "Verif.IoStream.C21_refused_false"
   ],
   "note": "Composition of sender and receiver for every interleaving, batching and chunking, if uv_write never refuses a request. If it does, a message whose send failed is still written and received later (C21_refused_false); the receiver still gets a first part of what was queued, in order and unchanged (C21_any_write). C21_graceful_partial: without a forced disconnect a connection is closed only when everything accepted was written."
  },
  {
   "property": "C22",
   "status": "partial",
   "theorems": [
    "Verif.IoStream.C22_hostile_stream_partial",
    "Verif.IoStream.C22_overflow_false",
    "Verif.IoStream.C22_exact"
   ],
   "note": "Proved for every stream whose length fields do not overflow 64 bits together with the header; false otherwise (C22_overflow_false: fourteen bytes make the receiver read outside its buffer). C22_exact: these are the only bad runs."
  },
  {
   "property": "C23",
   "status": "proved",
   "theorems": [
    "Verif.IoStream.C23_only_good_frames"
   ],
   "note": "Every callback made, also in runs that later read outside the buffer (C22_exact says which): the callbacks are collected up to that point."
  },
  {
   "property": "C24",
   "status": "partial",
   "theorems": [
    "Verif.IoStream.Pool.C24_reentrant_order",
    "Verif.IoStream.Pool.C24_reentrant_all_partial",
    "Verif.IoStream.Pool.C24_reentrant_refused_false",
    "Verif.IoStream.C24_one_completion_partial",
    "Verif.IoStream.C24_no_duplicate",
    "Verif.IoStream.C24_write_refused_false"
   ],
   "note": "Order and no duplicates for every run; exactly one completion if uv_write never refuses a request, false otherwise (C24_write_refused_false). The same for re-entrant applications in C24_reentrant_order and C24_reentrant_all_partial; then a refusal can also drop messages without a report (C24_reentrant_refused_false)."
  },
  {
   "property": "C25",
   "status": "proved",
   "theorems": [
    "Verif.Buffer.C25_static_merge_fits",
    "Verif.Buffer.C25_dynamic_merge_fits"
   ],
   "note": ""
  },
  {
   "property": "C26",
   "status": "proved",
   "theorems": [
    "Verif.Address.C26_round_trip",
    "Verif.Address.C26_no_port",
    "Verif.Address.C26_no_port_colon"
   ],
   "note": ""
  },
  {
   "property": "C27",
   "status": "proved",
   "theorems": [
    "Verif.Address.C27_simplex_xor_duplex",
    "Verif.Address.C27_simplex_iff",
    "Verif.Address.C27_duplex_iff",
    "Verif.Address.C27_local",
    "Verif.Address.C27_empty"
   ],
   "note": ""
  },
  {
   "property": "C28",
   "status": "partial",
   "theorems": [
    "Verif.Subnet.C28_range_partial",
    "Verif.Subnet.C28_children_bounds",
    "Verif.Subnet.C28_contain_range",
    "Verif.Subnet.C28_wide_mask_false"
   ],
   "note": "Full for mask widths 0..30, child bounds for 0..63. For widths 31..63 the code computes (1 << m) - 1 in int: undefined behaviour, shown by C28_wide_mask_false."
  },
  {
   "property": "C29",
   "status": "partial",
   "theorems": [
    "Verif.Subnet.C29_merge_partial",
    "Verif.Subnet.C29_merge_perm",
    "Verif.Subnet.C29_merge_defined_partial",
    "Verif.Subnet.C29_defined_false",
    "Verif.Subnet.C29_no_overlap_false",
    "Verif.Subnet.C29_order_false",
    "Verif.Subnet.C29_create_covers"
   ],
   "note": "Covered set and order by largest id proved for all lists; no overlap proved for lists without nesting. With nested input the result can overlap (C29_no_overlap_false, C29_order_false); joining two 30-bit subnets is undefined behaviour (C29_defined_false)."
  },
  {
   "property": "C30",
   "status": "partial",
   "theorems": [
    "Verif.Subnet.C30_contain_sound",
    "Verif.Subnet.C30_contain_confs_sound",
    "Verif.Subnet.C30_contain_complete_partial",
    "Verif.Subnet.C30_zero_start_false",
    "Verif.Subnet.C30_nested_false",
    "Verif.Subnet.C30_contain_id"
   ],
   "note": "Soundness for all lists. Completeness proved for parents normalised from non-overlapping lists and children not starting at 0; false otherwise (C30_zero_start_false, C30_nested_false)."
  },
  {
   "property": "C31",
   "status": "partial",
   "theorems": [
    "Verif.Subnet.C31_route_partial",
    "Verif.Subnet.C31_route_zero_partial",
    "Verif.Subnet.C31_route_sound",
    "Verif.Subnet.C31_route_false"
   ],
   "note": "Proved for all histories of endpoints without nested subnets; false for nested subnets (C31_route_false)."
  },
  {
   "property": "C32",
   "status": "partial",
   "theorems": [
    "Verif.Subnet.C32_conflict_partial",
    "Verif.Subnet.C32_refusal_justified",
    "Verif.Subnet.C32_zero_start_false",
    "Verif.Subnet.C32_nested_false"
   ],
   "note": "Proved for all histories of endpoints without nested subnets and with at most one range starting at id 0; false otherwise (C32_zero_start_false, C32_nested_false). Justified refusal proved for all tables."
  },
  {
   "property": "C33",
   "status": "partial",
   "theorems": [
    "Verif.Subnet.C33_table_partial",
    "Verif.Subnet.C33_table_false",
    "Verif.Subnet.C33_results_partial"
   ],
   "note": "Refinement of add/remove histories to a registry of endpoints, same restriction as C32; false for two ranges starting at id 0 (C33_table_false)."
  },
  {
   "property": "C34",
   "status": "partial",
   "theorems": [
    "Verif.Node.C34_next_hop_partial",
    "Verif.Node.C34_zero",
    "Verif.Node.C34_self",
    "Verif.Node.C34_nested_false"
   ],
   "note": "Proved for every history of registered endpoints without nested subnets, every destination id and every choice of connections. False for nested subnets (C34_nested_false, consequence of C31)."
  },
  {
   "property": "C35",
   "status": "partial",
   "theorems": [
    "Verif.Node.C35_request_bound_partial",
    "Verif.Node.C35_origin",
    "Verif.Node.C35_limit",
    "Verif.Node.C35_response_loop_false"
   ],
   "note": "The request itself: bound proved for arbitrary networks whose nodes change arbitrarily between visits, and no handling after the limit. False for the traffic a request causes in total: responses have no hop limit and can circulate for ever (C35_response_loop_false)."
  },
  {
   "property": "C36",
   "status": "partial",
   "theorems": [
    "Verif.Node.C36_forward_partial",
    "Verif.Node.C36_shared_memory_false"
   ],
   "note": "Proved for messages received on a connection bound to the neighbour. False for messages received through shared memory, where the connection is bound to the node itself (C36_shared_memory_false)."
  },
  {
   "property": "C37",
   "status": "partial",
   "theorems": [
    "Verif.Node.Registry.C37_gate",
    "Verif.Node.Registry.C37_history",
    "Verif.Node.Registry.C37_shared",
    "Verif.Node.Registry.C37_disjoint",
    "Verif.Node.Registry.C37_no_token",
    "Verif.Node.Registry.C37_zero_key_false",
    "Verif.Node.Registry.C37_reflection_false"
   ],
   "note": "Proved for nodes with tokens over every history and every hash function; sharing a token is sufficient. A node without tokens also accepts non-empty access data with a zero key (C37_zero_key_false). The check does not tell who made the data: a refusal carries keys made with the node's tokens, and sending them back is accepted (C37_reflection_false)."
  },
  {
   "property": "C38",
   "status": "partial",
   "theorems": [
    "Verif.Node.C38_unregistered_partial",
    "Verif.Node.C38_no_connection",
    "Verif.Node.C38_version_false"
   ],
   "note": "Proved for supported versions and all responses. A request of an unsupported version is answered towards any node before the connection is checked (C38_version_false). A connection the node opened itself counts as registered once it is established (property C46 model)."
  },
  {
   "property": "C39",
   "status": "proved",
   "theorems": [
    "Verif.Node.C39_sequence"
   ],
   "note": ""
  },
  {
   "property": "C40",
   "status": "partial",
   "theorems": [
    "Verif.Node.Self.C40_order_partial",
    "Verif.Node.Self.C40_limit_partial",
    "Verif.Node.Self.C40_reset_false"
   ],
   "note": "Order, exactly once, limit and progress proved for every history and every application that does not reset the node inside a callback. A reset inside a delivery is undefined behaviour (C40_reset_false)."
  },
  {
   "property": "C41",
   "status": "partial",
   "theorems": [
    "Verif.Node.Peer.C41_threshold_partial",
    "Verif.Node.Peer.C41_connection",
    "Verif.Node.Peer.C41_registered",
    "Verif.Node.Peer.C41_successor_false",
    "Verif.Node.Peer.C41_write_after_removal_false"
   ],
   "note": "Removal exactly at the threshold proved for faults of registered endpoint objects, for every history; the connection counter likewise. A fault of an object that is no longer registered is counted too and removes a healthy successor with the same id (C41_successor_false); the ping sender writes to an endpoint it has just removed (C41_write_after_removal_false)."
  },
  {
   "property": "C42",
   "status": "partial",
   "theorems": [
    "Verif.Node.Life.C42_cycle",
    "Verif.Node.Life.C42_alternate_partial",
    "Verif.Node.Life.C42_shutdown_partial",
    "Verif.Node.Life.C42_reset_false",
    "Verif.Node.Life.C42_late_false"
   ],
   "note": "Proved: each life cycle reports nothing, up, or up then down, for every history and every re-entrant callback. Alternation over several life cycles holds if an active node is reset only after a shutdown and is not activated after one; false otherwise (C42_reset_false, C42_late_false)."
  },
  {
   "property": "C43",
   "status": "partial",
   "theorems": [
    "Verif.Node.Timer.C43_clock",
    "Verif.Node.Timer.C43_timeout",
    "Verif.Node.Timer.C43_no_early",
    "Verif.Node.Timer.C43_ends",
    "Verif.Node.Timer.C43_start_false"
   ],
   "note": "Clock, expiry and termination proved for every history after the node started and every application callback. Attempts made before start can outlive the timeout, because start sets the clock back (C43_start_false)."
  },
  {
   "property": "C44",
   "status": "partial",
   "theorems": [
    "Verif.Node.Timer.C44_ends_partial",
    "Verif.Node.Timer.C44_exact_partial",
    "Verif.Node.Timer.C44_each_once",
    "Verif.Node.Timer.C44_hang_false"
   ],
   "note": "Undisturbed, every due endpoint is visited exactly once in order (C44_each_once). Termination is characterised exactly for callbacks that leave the timers alone, and proved for callbacks that only add timers in the future. False in general: an overdue endpoint whose timer is followed by another due timer makes the loop run for ever (C44_hang_false)."
  },
  {
   "property": "C45",
   "status": "partial",
   "theorems": [
    "Verif.Node.Peer.C45_pong_partial",
    "Verif.Node.Peer.C45_answer",
    "Verif.Node.Peer.C45_numbers",
    "Verif.Node.Peer.C45_zero_false"
   ],
   "note": "Proved for every pong except sequence number 0. A pong with number 0 is accepted when no ping is outstanding (C45_zero_false)."
  },
  {
   "property": "C46",
   "status": "partial",
   "theorems": [
    "Verif.Endpoint.C46_add",
    "Verif.Endpoint.C46_binding_partial",
    "Verif.Endpoint.C46_loss_partial",
    "Verif.Endpoint.C46_connected_partial",
    "Verif.Endpoint.C46_reentrant_false"
   ],
   "note": "Binding and loss proved for every history of calls in which callbacks do not re-enter the endpoint or connection. If a callback made inside a reset calls back into them the relation breaks (C46_reentrant_false)."
  },
  {
   "property": "C47",
   "status": "partial",
   "theorems": [
    "Verif.Endpoint.C47_choice_partial",
    "Verif.Endpoint.C47_first_partial",
    "Verif.Endpoint.C47_flags_partial",
    "Verif.Endpoint.C47_other_process_false"
   ],
   "note": "Choice proved for every state whose flags are as the code keeps them, which holds after every history that opens connections before binding them and does not re-enter (C47_flags_partial). False for the process-local class: a mem connection is offered to another process of the same host (C47_other_process_false)."
  },
  {
   "property": "C48",
   "status": "partial",
   "theorems": [
    "Verif.Node.C48_one_answer_partial",
    "Verif.Node.C48_upward_false",
    "Verif.Node.Self.C48_self_answer_false"
   ],
   "note": "Proved for chains of any length for requests that travel downwards or do not ask for a response, wherever they fail. False upwards, where each forwarding node answers too (C48_upward_false), and for answers to oneself, which are dropped (C48_self_answer_false)."
  },
  {
   "property": "C49",
   "status": "partial",
   "theorems": [
    "Verif.Node.Registry.C49_identity",
    "Verif.Node.Registry.C49_unique_partial",
    "Verif.Node.Registry.C49_conflict_partial",
    "Verif.Node.Registry.C49_same",
    "Verif.Node.Registry.C49_own_id_false",
    "Verif.Node.Registry.C49_hash_false",
    "Verif.Node.Registry.C49_temporary_false"
   ],
   "note": "Identity of everything that joins an endpoint proved for every history of a node with an id; refusal of another process or host and joining by the same process proved after every history with usable subnets. False for the node's own id, which is accepted (C49_own_id_false), for the hash code of the existing endpoint (C49_hash_false) and on temporary nodes (C49_temporary_false)."
  },
  {
   "property": "C50",
   "status": "partial",
   "theorems": [
    "Verif.Shm.C50_sysv_partial",
    "Verif.Shm.C50_posix_law",
    "Verif.Shm.C50_posix_early_false",
    "Verif.Shm.C50_posix_leak_false",
    "Verif.Shm.C50_sysv_no_abort",
    "Verif.Shm.C50_same_number",
    "Verif.Shm.C50_refused",
    "Verif.Shm.C50_slash"
   ],
   "note": "Proved for every history in which the name is a non-zero number, with any failures; the assertion never fails then. False for POSIX names: with one user the segment is never unmapped (or the process aborts), with two the first close unmaps it (C50_posix_leak_false, C50_posix_early_false); exact law for all histories in C50_posix_law."
  },
  {
   "property": "C51",
   "status": "partial",
   "theorems": [
    "Verif.Node.Sizes.C51_refused_partial",
    "Verif.Node.Sizes.C51_command_wrap_false",
    "Verif.Node.Sizes.C51_stream_fits",
    "Verif.Node.Sizes.C51_stream_delivery_partial",
    "Verif.Node.Sizes.C51_data_accepted",
    "Verif.Node.Sizes.C51_memory_blocks",
    "Verif.Node.Sizes.C51_memory_data_false",
    "Verif.Node.Sizes.C51_memory_command_false"
   ],
   "note": "Refusal proved if the sizes of a command's arguments do not overflow 64 bits (C51_command_wrap_false otherwise). Every accepted message fits every stream receiver and arrives (composition with C21). False for memory channels, whose receive buffer is smaller than the send limit (C51_memory_data_false, C51_memory_command_false)."
  },
  {
   "property": "C52",
   "status": "partial",
   "theorems": [
    "Verif.Node.Registry.C52_pairs_partial",
    "Verif.Node.Registry.C52_reset_false",
    "Verif.Node.Registry.C52_up_false"
   ],
   "note": "Alternation and agreement with the registry proved for every history with usable subnets, if the node is never reset or every endpoint has one range. A reset reports an endpoint once per range (C52_reset_false); disconnecting the new parent in the callback for becoming active reverses the order (C52_up_false)."
  },
  {
   "property": "C53",
   "status": "partial",
   "theorems": [
    "Verif.Node.PushStat.C53_law",
    "Verif.Node.PushStat.C53_account_partial",
    "Verif.Node.PushStat.C53_results",
    "Verif.Node.PushStat.C53_write_refused_false",
    "Verif.Node.PushStat.C53_empty_false",
    "Verif.Node.PushStat.C53_disconnect_false"
   ],
   "note": "Exact accounting law for all runs; the property itself if no write is refused, no push is empty and the connection is closed through the channel. False otherwise (C53_write_refused_false, C53_empty_false, C53_disconnect_false)."
  },
  {
   "property": "C54",
   "status": "partial",
   "theorems": [
    "Verif.Address.C54_parse_defined_partial",
    "Verif.Address.C54_parse_false"
   ],
   "note": "False: texts with fewer than two characters after the first separator make substr throw, and a port that does not fit int is undefined behaviour of sscanf (C54_parse_false). Proved for all other texts."
  },
  {
   "property": "C55",
   "status": "proved",
   "theorems": [
    "Verif.IoStream.Pool.C55_answered_once",
    "Verif.IoStream.Pool.C55_closed",
    "Verif.IoStream.Pool.C55_answer_sound"
   ],
   "note": "Proved for every history and every re-entrant application. Assumption for C55_closed: a new socket does not get the number of an open one."
  },
  {
   "property": "C56",
   "status": "partial",
   "theorems": [
    "Verif.IoStream.Pool.C56_bounded",
    "Verif.IoStream.Pool.C56_never_stuck_partial",
    "Verif.IoStream.Pool.C56_clean",
    "Verif.IoStream.Pool.C56_stalled_false",
    "Verif.IoStream.Pool.C56_handles_false"
   ],
   "note": "Bound on the number of reports and emptiness at the end proved for every history; never stuck if the table of closing connections is not rehashed (see C57). False: a write to a peer that takes no data blocks io_stream_close for ever (C56_stalled_false); in a loop of the application handles of failed sockets may be left (C56_handles_false)."
  },
  {
   "property": "C57",
   "status": "partial",
   "theorems": [
    "Verif.IoStream.Pool.C57_reported_once",
    "Verif.IoStream.Pool.C57_closed",
    "Verif.IoStream.Pool.C57_safe_partial",
    "Verif.IoStream.Pool.C57_rehash_false",
    "Verif.IoStream.Pool.C57_callback_false"
   ],
   "note": "Announced once, disconnected once, nothing afterwards: proved for every history. No undefined behaviour if the application uses no connection that is gone and the hash table is not rehashed while a close callback runs; false otherwise (C57_rehash_false). A disconnect callback is lost if the connection is disconnected again (C57_callback_false)."
  },
  {
   "property": "C58",
   "status": "partial",
   "theorems": [
    "Verif.IoStream.Pool.C58_other_untouched_partial",
    "Verif.IoStream.Pool.C58_shared_count_false"
   ],
   "note": "Proved for every event except that the count of empty reads is shared by all connections of the channel and never reset, so it closes healthy ones (C58_shared_count_false)."
  },
  {
   "property": "C59",
   "status": "partial",
   "theorems": [
    "Verif.IoStream.Pool.C59_result_partial",
    "Verif.IoStream.Pool.C59_failed_write_false"
   ],
   "note": "Messages reported with an error were not written, and messages not written are reported with an error if they were dropped on closing. False for failed writes, which are reported as success (C59_failed_write_false)."
  },
  {
   "property": "C60",
   "status": "partial",
   "theorems": [
    "Verif.Node.Connect.C60_attempt_partial",
    "Verif.Node.Connect.C60_new_attempt",
    "Verif.Node.Connect.C60_prefix_false",
    "Verif.Node.Connect.C60_refused_false",
    "Verif.Node.Connect.C60_failed_false",
    "Verif.Node.Connect.C60_incoming_false",
    "Verif.Node.Connect.C60_kept",
    "Verif.Node.Connect.C60_due"
   ],
   "note": "Proved for histories in which no address is a prefix of another, the channel takes every request and nobody connects to the node. Each of these is needed: prefix of a pending address (C60_prefix_false), entry left by a refused call (C60_refused_false, C60_failed_false), incoming unix connection (C60_incoming_false)."
  },
  {
   "property": "C61",
   "status": "partial",
   "theorems": [
    "Verif.Node.Connect.C61_keeps_trying",
    "Verif.Node.Connect.C61_spaced",
    "Verif.Node.Connect.C61_active_stays_partial",
    "Verif.Node.Connect.C61_gives_up_false",
    "Verif.Node.Connect.C61_stalled_false",
    "Verif.Node.Connect.C61_stalled_shutdown_false"
   ],
   "note": "Both time bounds on the calls proved for all histories after start; a node that was active once never gives up. False: a node that was not yet active shuts down after the first failure (C61_gives_up_false), and a call of connect is not always an attempt (C61_stalled_false, C61_stalled_shutdown_false)."
  },
  {
   "property": "C62",
   "status": "partial",
   "theorems": [
    "Verif.Node.Command.C62_history_partial",
    "Verif.Node.Command.C62_direct",
    "Verif.Node.Command.C62_request",
    "Verif.Node.Command.C62_round_trip",
    "Verif.Node.Command.C62_indirect_false",
    "Verif.Node.Command.C62_untold_false",
    "Verif.Node.Command.C62_sender_false"
   ],
   "note": "Proved for every execution of any network except two points. The node a command is given to is the next hop, which executes it itself: commands for nodes that are not neighbours are executed by the parent (C62_indirect_false). A refused command is answered with a text that the application cannot tell from an answer (C62_untold_false). The sender named in a command is not checked (C62_sender_false). Assumption: connections chosen for an endpoint lead to a node with its id."
  },
  {
   "property": "C63",
   "status": "partial",
   "theorems": [
    "Verif.Node.Command.C63_gate_partial",
    "Verif.Node.Command.C63_command_key",
    "Verif.Node.Command.C63_answer_false",
    "Verif.Node.Command.C63_command_false",
    "Verif.Node.Command.C63_ping_false",
    "Verif.Node.Command.C63_ping_answer"
   ],
   "note": "Proved for data messages of a supported version, tree sync and connect sync; commands without a genuine key are refused on a node with tokens. False for answers to commands (C63_answer_false, even with tokens), commands on nodes without tokens (C63_command_false), ping and pong (C63_ping_false)."
  },
  {
   "property": "C64",
   "status": "partial",
   "theorems": [
    "Verif.Node.Mesh.C64_calls",
    "Verif.Node.Mesh.C64_one_way",
    "Verif.Node.Mesh.C64_rule_partial",
    "Verif.Node.Mesh.C64_exactly_one",
    "Verif.Node.Mesh.C64_discarded",
    "Verif.Node.Mesh.C64_unix_false",
    "Verif.Node.Mesh.C64_many_false",
    "Verif.Node.Mesh.C64_wildcard_false"
   ],
   "note": "At most one side opens streams, the exact set of addresses connected to and the rule for discarding are proved for all pairs. The documented rule is proved on one host or without unix sockets; with a unix socket of another host nobody may connect (C64_unix_false). All stream addresses are connected to, not one (C64_many_false); an address of any interface is connected to on the own host (C64_wildcard_false)."
  },
  {
   "property": "C65",
   "status": "partial",
   "theorems": [
    "Verif.Node.Mesh.C65_address_partial",
    "Verif.Node.Mesh.C65_larger_false",
    "Verif.Node.Mesh.C65_wildcard_false"
   ],
   "note": "The address named is always a reachable stream address of the destination, and there is a request exactly if the forwarding node connected to such an address itself. It does not if it has the larger id: then there is never a request (C65_larger_false). An address of any interface leads the source to itself (C65_wildcard_false)."
  },
  {
   "property": "C66",
   "status": "partial",
   "theorems": [
    "Verif.Node.Mesh.C66_memory_partial",
    "Verif.Node.Mesh.C66_text_false",
    "Verif.Node.Mesh.C66_request_false",
    "Verif.Node.Mesh.C66_claim_false"
   ],
   "note": "Proved for texts in which the letters mem are followed by a colon. False otherwise: the address tests compare four characters, connection::connect only three letters of the scheme, so memx://N is taken for a stream and opened as memory at N, from a registration (C66_text_false) or a request to connect (C66_request_false). Host and process are those claimed by the other node (C66_claim_false)."
  },
  {
   "property": "C67",
   "status": "partial",
   "theorems": [
    "Verif.Node.Poll.C67_once",
    "Verif.Node.Poll.C67_table_partial",
    "Verif.Node.Poll.C67_polled_partial",
    "Verif.Node.Poll.C67_ends",
    "Verif.Node.Poll.C67_isolated",
    "Verif.Node.Poll.C67_self_false",
    "Verif.Node.Poll.C67_fault_false",
    "Verif.Node.Poll.C67_rehash_false",
    "Verif.Node.Poll.C67_twice_false"
   ],
   "note": "Order, at most one poll, the end of the loop and isolation proved for every history; exactly one poll of every open connection if no address is listened on twice, no handler closes the connection it was called for or makes the table rehash, and no connection has more faults than tolerated. Each condition is needed: C67_self_false, C67_rehash_false, C67_twice_false, and C67_fault_false: enough messages that cannot be handled close the channel inside the loop, which then uses an erased iterator."
  },
  {
   "property": "C68",
   "status": "partial",
   "theorems": [
    "Verif.Node.Link.C68_safe_partial",
    "Verif.Node.Link.C68_pairs_partial",
    "Verif.Node.Link.C68_owned_partial",
    "Verif.Node.Link.C68_both_ends_partial",
    "Verif.Node.Link.C68_backlog_partial",
    "Verif.Node.Link.C68_down_partial",
    "Verif.Node.Link.C68_timed",
    "Verif.Node.Link.C68_accept_false",
    "Verif.Node.Link.C68_reuse_false",
    "Verif.Node.Link.C68_reset_false",
    "Verif.Node.Link.C68_backlog_false"
   ],
   "note": "Proved for every history without a failed accept and without connecting an object again while its request is pending; resets by the application inside callbacks, timeouts and collections come in any order. False otherwise: the accept callback is called with a null pointer on failure and uses it (C68_accept_false); an object connected again has two streams and leaves one dangling (C68_reuse_false). A connection reset while connecting comes back when the request succeeds (C68_reset_false; C68_down_partial without pending request). The limit of incoming connections holds, but own attempts count against it (C68_backlog_false)."
  },
  {
   "property": "C69",
   "status": "partial",
   "theorems": [
    "Verif.Node.Collect.C69_collect",
    "Verif.Node.Collect.C69_alive_partial",
    "Verif.Node.Collect.C69_ping_partial",
    "Verif.Node.Collect.C69_listen_partial",
    "Verif.Node.Collect.C69_disconnect",
    "Verif.Node.Collect.C69_late_false",
    "Verif.Node.Collect.C69_own_id_false",
    "Verif.Node.Collect.C69_rejoin_false",
    "Verif.Node.Collect.C69_ping_false",
    "Verif.Node.Collect.C69_listen_false"
   ],
   "note": "What one collection does is proved exactly for every reachable state (C69_collect). Registered endpoints without control connection are always waiting for collection unless they were reset by something else while a collection was running (then they stay for good: C69_late_false) or carry the node's own id, which cannot be removed (C69_own_id_false). Every registered endpoint has a ping timer or is waiting, except one that reconnected before it was collected: it is removed with its new connection (C69_rejoin_false) or stays and is never pinged again (C69_ping_false). Listeners stay open while none fails; if one fails all are closed, and those opened again before the collection too (C69_listen_false)."
  },
  {
   "property": "C70",
   "status": "partial",
   "theorems": [
    "Verif.Shm.Share.C70_share_partial",
    "Verif.Shm.Share.C70_build_false",
    "Verif.Shm.Share.C70_race_false",
    "Verif.Shm.Share.C70_transient_false",
    "Verif.Shm.Share.C70_alias_false",
    "Verif.Shm.Share.C70_private_false",
    "Verif.Shm.Share.C70_posix_false",
    "Verif.Shm.Share.C70_unmapped_false"
   ],
   "note": "Proved for names that are numbers, not multiples of 2^32, with no other name of the same number modulo 2^32 in use, all processes of one build, opening not interleaved with another opening, and no failure of attaching for a passing reason. Each of these is needed (C70_build_false, C70_race_false, C70_transient_false, C70_alias_false, C70_private_false); POSIX names: C70_posix_false, C70_unmapped_false."
  },
  {
   "property": "C71",
   "status": "partial",
   "theorems": [
    "Verif.Node.Tree.C71_delivery_partial",
    "Verif.Node.Tree.C71_end_partial",
    "Verif.Node.Tree.C71_answers_false",
    "Verif.Node.Tree.C71_success_false",
    "Verif.Node.Tree.C71_broken_false",
    "Verif.Node.Tree.C71_answer_lost_false"
   ],
   "note": "Proved for nodes whose tables do not change, whose hop limit is at least the distance, and whose connections along the trees and between the tops work; connections to other nodes may be lost. Not true of the code: exactly one answer (C71_answers_false), no report of success for a node that does not exist (C71_success_false), sending one's own messages when a direct connection is lost (C71_broken_false), answers over a lost connection (C71_answer_lost_false)."
  },
  {
   "property": "C72",
   "status": "partial",
   "theorems": [
    "Verif.Node.Tree.C72_safe_partial",
    "Verif.Node.Tree.C72_once_partial",
    "Verif.Node.Tree.C72_late_false"
   ],
   "note": "Proved for every history of any network in which nodes keep their ids and a message that a connection refused is not sent later. False otherwise (C72_late_false): because of C24_write_refused_false a refused message can be sent later, so it is delivered twice, delivered after a report of failure, or delivered though send_data returned an error."
  },
  {
   "property": "C73",
   "status": "partial",
   "theorems": [
    "Verif.Node.Handshake.C73_agree_partial",
    "Verif.Node.Handshake.C73_ends",
    "Verif.Node.Handshake.C73_temporary_false"
   ],
   "note": "Proved for two nodes with ids (not 0), for every history before and during the exchange; callbacks of the registration itself do nothing. Termination has no such condition. False if one node is temporary (id 0): its end is established, the end of the other node is not and is closed when the time for connecting is over (C73_temporary_false)."
  },
  {
   "property": "C74",
   "status": "partial",
   "theorems": [
    "Verif.Node.Waiting.C74_safe_partial",
    "Verif.Node.Waiting.C74_once_partial",
    "Verif.Node.Waiting.C74_ends_partial",
    "Verif.Node.Waiting.C74_reset_partial",
    "Verif.Node.Waiting.C74_proc_false",
    "Verif.Node.Waiting.C74_error_false",
    "Verif.Node.Waiting.C74_reuse_false",
    "Verif.Node.Waiting.C74_left_false"
   ],
   "note": "Proved for every application that does not, inside the callbacks for an unfinished connection, call proc or node::reset, establish that connection, or (in the error callback) reset it, and with an allocator that does not hand out the address of a list node twice. Each condition is needed: C74_proc_false, C74_error_false, C74_reuse_false. The list of a node that was reset is empty unless a connection is made in a callback of the reset (C74_left_false)."
  },
  {
   "property": "C75",
   "status": "partial",
   "theorems": [
    "Verif.Endpoint.Life.C75_safe_partial",
    "Verif.Endpoint.Life.C75_binding_partial",
    "Verif.Endpoint.Life.C75_down_partial",
    "Verif.Endpoint.Life.C75_ends_partial",
    "Verif.Endpoint.Life.C75_reset_false",
    "Verif.Endpoint.Life.C75_ctrl_false",
    "Verif.Endpoint.Life.C75_left_false"
   ],
   "note": "Proved for every history of calls, made outside or inside callbacks, in which endpoint objects are destroyed at any time no running call holds them, for applications that do not, in a callback of the reset of a data connection, reset or give up the endpoint of that connection or reset its control connection, and that bind each connection object once (extends C46, whose theorems exclude re-entrance). The conditions are needed: C75_reset_false, C75_ctrl_false, C75_left_false. Reference counts of endpoints are not modelled."
  },
  {
   "property": "C76",
   "status": "partial",
   "theorems": [
    "Verif.Endpoint.C76_connection_partial",
    "Verif.Endpoint.C76_endpoint_partial",
    "Verif.Endpoint.C76_grows_partial",
    "Verif.Endpoint.C76_loss_false"
   ],
   "note": "Proved for every history without calls inside callbacks (as in C46): all eight counters of a connection, the totals of an endpoint, and that totals only grow while no connection is lost. False in general: C76_loss_false, the totals of a living endpoint drop when one of its data connections is reset. Counters do not wrap in the model."
  },
  {
   "property": "C77",
   "status": "partial",
   "theorems": [
    "Verif.Node.Work.C77_connection",
    "Verif.Node.Work.C77_proc_partial",
    "Verif.Node.Work.C77_poll",
    "Verif.Node.Work.C77_error_false",
    "Verif.Node.Work.C77_zero_false"
   ],
   "note": "The result of connection::proc (C77_connection) and of node::poll (C77_poll, also when the counter wraps) is proved in full. node::proc adds the error codes of channels to the number of messages: false then (C77_error_false, C77_zero_false), proved otherwise (C77_proc_partial)."
  },
  {
   "property": "C78",
   "status": "partial",
   "theorems": [
    "Verif.Mem.C78_receive",
    "Verif.Mem.C78_send",
    "Verif.Mem.C78_nodes",
    "Verif.Mem.C78_clean",
    "Verif.Mem.C78_bad_block_false",
    "Verif.Mem.C78_shown_partial",
    "Verif.Mem.C78_shown_false"
   ],
   "note": "Proved for one caller at a time: accounting of nodes over every history with arbitrary damage to heads, data, clock and sequence number between calls (C78_nodes, C78_receive, C78_send), and no counter changes in undisturbed use (C78_clean). False as documented: read_bad_block_count counts timeouts only (C78_bad_block_false); the sizes printed by mem_show_channel are wrong except for 256 nodes (C78_shown_partial, C78_shown_false). Counters do not wrap in the model; concurrent senders are not covered."
  },
  {
   "property": "C79",
   "status": "partial",
   "theorems": [
    "Verif.Node.Pipe.C79_order_partial",
    "Verif.Node.Pipe.C79_arrives",
    "Verif.Node.Pipe.C79_closed",
    "Verif.Node.Pipe.C79_blocked",
    "Verif.Node.Pipe.C79_garbage",
    "Verif.Node.Pipe.C79_failures",
    "Verif.Node.Pipe.C79_blocked_false"
   ],
   "note": "Order and content proved for every history, whatever the handlers do (C79_order_partial: calls of the two nodes do not overlap; empty messages are dropped by mem_send, which reports success). Arrival proved for messages that fit the static buffer of the receiver and handlers that end well (C79_arrives). False otherwise: a message that mem_send accepts but that exceeds the buffer of the receiver stops the channel and closes the connection, while pushes still report success (C79_blocked, C79_blocked_false, C79_closed). Handlers may fail as long as no more than fault_tolerant do so in a row (C79_failures). Messages that cannot be unpacked are dropped and are no fault (C79_garbage)."
  },
  {
   "property": "C80",
   "status": "partial",
   "theorems": [
    "Verif.Node.Handler.C80_steady",
    "Verif.Node.Handler.C80_gentle_partial",
    "Verif.Node.Handler.C80_loop_partial",
    "Verif.Node.Handler.C80_error_steady",
    "Verif.Node.Handler.C80_remove_false",
    "Verif.Node.Handler.C80_refused_false",
    "Verif.Node.Handler.C80_refused_ends",
    "Verif.Node.Handler.C80_token_kept"
   ],
   "note": "Proved for any behaviour of the application on the steady paths (C80_steady) and after errors of the channel (C80_error_steady, if on_error leaves the connection alone), and for all paths and the loop over memory channels when the application does not remove an endpoint the handler points to and does not run or reset the node inside the callback (C80_gentle_partial, C80_loop_partial), except for a refused new endpoint. False otherwise: C80_remove_false, and C80_refused_false, which needs no action of the application at all. Refused registrations let go of the connection whatever the application does (C80_refused_ends), except one refused for its token or version whose answer could be sent (C80_token_kept)."
  },
  {
   "property": "C81",
   "status": "partial",
   "theorems": [
    "Verif.Node.Heart.C81_silent_partial",
    "Verif.Node.Heart.C81_documented_false",
    "Verif.Node.Heart.C81_talking_partial",
    "Verif.Node.Heart.C81_parent_silent_partial",
    "Verif.Node.Heart.C81_parent_talking_partial",
    "Verif.Node.Heart.C81_unusable",
    "Verif.Node.Heart.C81_created_false",
    "Verif.Node.Heart.C81_tolerance_false",
    "Verif.Node.Heart.C81_temporary_false",
    "Verif.Node.Heart.C81_no_interval_false"
   ],
   "note": "Bound proved for every history and any number of endpoints, for endpoints that are not the parent (C81_silent_partial) and for the parent while it has a control connection (C81_parent_silent_partial); keeping proved for fault_tolerant 2 and more (C81_talking_partial, C81_parent_talking_partial). For an endpoint that never gets usable connections the time counts from the first visit of proc, which has happened when the clock shows one interval after its registration: it is gone first_idle_timeout + ping_interval after that, whatever it sends, parent or not (C81_unusable); counted from the registration this is false, because created_time_sec is set when it is first asked for (C81_created_false). Assumed: the node has an id, the interval is positive, the ping loop visits every due timer (see C44), removed endpoints are not held by others. False otherwise: a temporary node and one without interval never find out (C81_temporary_false, C81_no_interval_false), with fault_tolerant 1 a talking peer can be removed (C81_tolerance_false); the 24 seconds promised by the comment in the code are really up to 32 (C81_documented_false)."
  },
  {
   "property": "C82",
   "status": "proved",
   "theorems": [
    "Verif.Mem.Conc.C82_returns",
    "Verif.Mem.Conc.C82_not_stuck"
   ],
   "note": "C82_returns: number of accesses of a call that has not returned, in every interleaving and from every state (also with stopped senders and receiver, and damaged contents); C82_not_stuck: the loops over the nodes end. The bound needs the count of steps by which others held the call up; nothing is claimed about a sender that others overtake for ever. Model Conc (sequentially consistent)."
  },
  {
   "property": "C83",
   "status": "proved",
   "theorems": [
    "Verif.Subnet.C83_ranges",
    "Verif.Subnet.C83_operators",
    "Verif.Subnet.C83_partition",
    "Verif.Subnet.C83_any_sort",
    "Verif.Subnet.C83_conf_list",
    "Verif.Endpoint.C83_connections"
   ],
   "note": "All parts proved for all inputs: C83_ranges, C83_operators, C83_partition, C83_any_sort, C83_conf_list (masks up to 30, as in C28), C83_connections (any stable sort; the code uses std::list::sort, which is stable)."
  },
  {
   "property": "C84",
   "status": "partial",
   "theorems": [
    "Verif.Node.C84_exact_partial",
    "Verif.Node.C84_sends_partial",
    "Verif.Node.C84_zero_false"
   ],
   "note": "Proved for nodes with an id (C84_exact_partial, C84_sends_partial); false for a node with id 0, which calls every registered endpoint available, connections or not (C84_zero_false)."
  },
  {
   "property": "C85",
   "status": "partial",
   "theorems": [
    "Verif.Node.Reset.C85_closed_partial",
    "Verif.Node.Reset.C85_again_partial",
    "Verif.Node.Reset.C85_early_false",
    "Verif.Node.Reset.C85_held_false",
    "Verif.Node.Reset.C85_reconnect_false",
    "Verif.Node.Reset.C85_late_false",
    "Verif.Node.Reset.C85_init_false"
   ],
   "note": "Proved for every state in which open connections are listed and every endpoint with connections has a ping timer, if the application opens nothing inside the callbacks (C85_closed_partial); C85_again_partial compares the node with a new one. False otherwise: C85_early_false (the time of the next parent operation is kept: a node that is initialised again connects to the parent before it is started), C85_held_false (pings off and the application holds an endpoint: its connections outlive the channel), C85_reconnect_false (an application that connects again makes reset endless), C85_late_false, C85_init_false (init inside a callback of reset is undone). Assumed: libuv reports the end of every request; the own messages as one step of the application (see C40)."
  },
  {
   "property": "C86",
   "status": "partial",
   "theorems": [
    "Verif.Buffer.C86_queue_partial",
    "Verif.Buffer.C86_memory_partial",
    "Verif.Buffer.C86_failing_partial",
    "Verif.Buffer.C86_silent_false",
    "Verif.Buffer.C86_number_false",
    "Verif.Buffer.C86_lowered_false"
   ],
   "note": "Proved for every sequence of calls in both modes with any pattern of failing allocations (C86_queue_partial, C86_memory_partial, C86_failing_partial), for numbers of blocks below SIZE_MAX. False otherwise: set_mode cannot report that it got no memory and leaves a manager without limits (C86_silent_false); the largest number of blocks makes a ring without entries and the next push divides by zero (C86_number_false); a limit below what is held is accepted (C86_lowered_false)."
  },
  {
   "property": "C87",
   "status": "partial",
   "theorems": [
    "Verif.Node.Stream.C87_any",
    "Verif.Node.Stream.C87_order_partial",
    "Verif.Node.Stream.C87_arrives",
    "Verif.Node.Stream.C87_nodes",
    "Verif.Node.Stream.C87_settles",
    "Verif.Node.Stream.C87_closed",
    "Verif.Node.Stream.C87_lost_false",
    "Verif.Node.Stream.C87_size_false",
    "Verif.Node.Stream.C87_refused_false"
   ],
   "note": "Composition of the sender and receiver models of C20-C23 with connection::push and node::on_recv. Order and no loss inside the part that arrives (C87_order_partial), arrival (C87_arrives, C87_nodes for two nodes with the same configuration), progress with a bound (C87_settles), nothing after closing (C87_closed). With any result of uv_write what arrives is an initial part of what was queued (C87_any); the others need that no uv_write is refused. False: a message whose push returned an error arrives all the same (C87_refused_false); handlers that fail close the connection and what was read together with the message is dropped (C87_lost_false); a receiver with a smaller msg_size (C87_size_false)."
  },
  {
   "property": "C88",
   "status": "partial",
   "theorems": [
    "Verif.Node.Lanes.C88_any",
    "Verif.Node.Lanes.C88_each_partial",
    "Verif.Node.Lanes.C88_once_partial",
    "Verif.Node.Lanes.C88_one_partial",
    "Verif.Node.Lanes.C88_still_partial",
    "Verif.Node.Lanes.C88_arrives_partial",
    "Verif.Node.Lanes.C88_own",
    "Verif.Node.Lanes.C88_overtake_false"
   ],
   "note": "Any number of streams of C87 below the choice of connections of C47. Order over each stream (C88_each_partial), at most once (C88_once_partial), order while the connections stay (C88_one_partial, C88_still_partial), arrival (C88_arrives_partial), no shared streams (C88_own); no uv_write may be refused. With any result of uv_write the order over each stream is that of its queue, and nothing arrives more often than the application sent it (C88_any). Order over a change of connections is false: messages sent over the control connection while the data connection is being opened are overtaken by later ones (C88_overtake_false)."
  },
  {
   "property": "C89",
   "status": "partial",
   "theorems": [
    "Verif.Node.Life.C89_states",
    "Verif.Node.Life.C89_registered",
    "Verif.Node.Life.C89_kept",
    "Verif.Node.Life.C89_connecting_partial",
    "Verif.Node.Life.C89_connecting_false",
    "Verif.Node.Life.C89_again_false",
    "Verif.Node.Life.C89_early_false"
   ],
   "note": "On the life cycle model of C42 with calls inside callbacks. States and the flag ACTIVED (C89_states); activation below a parent needs an accepting response (C89_registered); CONNECTING_PARENT without init inside callbacks (C89_connecting_partial; otherwise C89_connecting_false). A RUNNING node is not stopped by what other nodes do (C89_kept). False: RUNNING after a lost parent does not need a new registration (C89_again_false); shutdown before init makes the first proc reset the node (C89_early_false)."
  },
  {
   "property": "C90",
   "status": "partial",
   "theorems": [
    "Verif.Node.Listen.C90_others_partial",
    "Verif.Node.Listen.C90_leads_partial",
    "Verif.Node.Listen.C90_serves_partial",
    "Verif.Node.Listen.C90_fits_partial",
    "Verif.Node.Listen.C90_remove_false",
    "Verif.Node.Listen.C90_relative_false",
    "Verif.Node.Listen.C90_taken_false",
    "Verif.Node.Listen.C90_length_false"
   ],
   "note": "Files named by no address stay (C90_others_partial); announced unix addresses lead this process to a socket opened for them, absolute ones every process (C90_leads_partial); socket files stay while no two calls name the same file (C90_serves_partial); paths that fit are accepted (C90_fits_partial). False: every scheme but mem and shm removes the file its host names, even if the call is then refused (C90_remove_false); a relative path is made absolute for the socket but announced as given (C90_relative_false); a second call takes or destroys the name of a live socket (C90_taken_false); a path whose absolute form has exactly the greatest length is refused (C90_length_false)."
  },
  {
   "property": "C91",
   "status": "partial",
   "theorems": [
    "Verif.Node.Relay.C91_duplicate_false",
    "Verif.Node.Relay.C91_overtake_false",
    "Verif.Node.Relay.C91_refused_false",
    "Verif.Node.Relay.C91_order_partial",
    "Verif.Node.Relay.C91_arrives_partial",
    "Verif.Node.Relay.C91_once_partial",
    "Verif.Node.Relay.C91_origin",
    "Verif.Node.Relay.C91_tree_partial"
   ],
   "note": "Any run: everything delivered was given to send_data for this node (C91_origin). Unless uv_write fails at once: no message is delivered more often than accepted (C91_once_partial). If the messages of two nodes always take the same way: order, no loss or repetition, completeness at rest (C91_order_partial, C91_arrives_partial); this is so in every tree of nodes with working connections (C91_tree_partial). False: a failed write leaves the message queued and the relay also sends it over its parent (C91_duplicate_false), a full queue makes one message take another way and be overtaken (C91_overtake_false), a message reported as failed is delivered (C91_refused_false)."
  },
  {
   "property": "C92",
   "status": "partial",
   "theorems": [
    "Verif.Node.Registry.C92_find_partial",
    "Verif.Node.Registry.C92_disconnect_partial",
    "Verif.Node.Registry.C92_remove_partial",
    "Verif.Node.Registry.C92_after_partial",
    "Verif.Node.Registry.C92_own_false",
    "Verif.Node.Registry.C92_nested_false"
   ],
   "note": "For peers that claim subnets that are not nested and do not start at 0: lookup (C92_find_partial), disconnect (C92_disconnect_partial, C92_after_partial), remove_endpoint for ids other than the node's own (C92_remove_partial). False otherwise: an endpoint with nested subnets can be neither found nor removed (C92_nested_false); a peer with the node's own id cannot be removed with remove_endpoint (C92_own_false)."
  },
  {
   "property": "C93",
   "status": "partial",
   "theorems": [
    "Verif.Node.Relay.C93_work_partial",
    "Verif.Node.Relay.C93_ends_partial",
    "Verif.Node.Relay.C93_rest_partial",
    "Verif.Node.Relay.C93_tree_partial",
    "Verif.Node.Relay.C93_tree_work_partial",
    "Verif.Node.Relay.C93_refused_work_partial",
    "Verif.Node.Relay.C93_refused_ends_partial",
    "Verif.Node.Relay.C93_refused_rest_false"
   ],
   "note": "Proved if no request to write is refused and answers are not routed in circles: bound on the work (C93_work_partial, C93_tree_work_partial), no infinite run (C93_ends_partial), what holds at the end (C93_rest_partial), trees, where answers cannot go in circles (C93_tree_partial). With any refused requests to write the work is bounded (C93_refused_work_partial, where each hop can double it, see C91_duplicate_false) and no run is infinite (C93_refused_ends_partial). Then not everything has arrived at the end: a refused message stays in the queue until the next push (C93_refused_rest_false). Answers routed in circles do go on for ever (C35_response_loop_false)."
  },
  {
   "property": "C94",
   "status": "partial",
   "theorems": [
    "Verif.Node.PeerAddr.C94_accepted_partial",
    "Verif.Node.PeerAddr.C94_port_false",
    "Verif.Node.PeerAddr.C94_distinct",
    "Verif.Node.PeerAddr.C94_unix",
    "Verif.Node.PeerAddr.C94_unix_false",
    "Verif.Node.PeerAddr.C94_target_partial",
    "Verif.Node.PeerAddr.C94_target_false",
    "Verif.Node.PeerAddr.C94_resolved",
    "Verif.Node.PeerAddr.C94_parent_iff",
    "Verif.Node.PeerAddr.C94_parent_name",
    "Verif.Node.PeerAddr.C94_parent_false",
    "Verif.Node.PeerAddr.C94_parent_unix",
    "Verif.Node.PeerAddr.C94_others_harmless"
   ],
   "note": "Family, IP and path of accepted connections (C94_accepted_partial, C94_unix), distinct addresses (C94_distinct), ports of resolved names and of addresses below 65536 (C94_resolved, C94_target_partial), which accepted connections are taken for the parent's (C94_parent_iff, C94_parent_name, C94_parent_unix, C94_others_harmless). False: the bytes of the port of an accepted connection are swapped (C94_port_false); a unix client that did not bind is named unix:// because the second call gets a buffer of size 0 (C94_unix_false); ports are taken modulo 65536 (C94_target_false); a client with the right port on the parent's host shuts down a waiting node by closing its connection (C94_parent_false)."
  },
  {
   "property": "C95",
   "status": "partial",
   "theorems": [
    "Verif.Node.HostName.C95_host_iff",
    "Verif.Node.HostName.C95_empty_iff",
    "Verif.Node.HostName.C95_fallback_false",
    "Verif.Node.HostName.C95_kept",
    "Verif.Node.HostName.C95_set",
    "Verif.Node.HostName.C95_forget",
    "Verif.Node.HostName.C95_self_false",
    "Verif.Node.HostName.C95_hash_ident",
    "Verif.Node.HostName.C95_hash_iff",
    "Verif.Node.HostName.C95_hash_false",
    "Verif.Node.HostName.C95_kept_code"
   ],
   "note": "Names and address sets (C95_host_iff, C95_empty_iff), stability over all sequences of calls (C95_kept, C95_set, C95_forget), the hashed bytes (C95_hash_ident, C95_hash_iff) and the code kept for a peer (C95_kept_code). SHA-256 itself and dumphex are not modelled (dumphex: different digits for different values, no colon). False: the fallback to gethostname collides with address texts and with an empty name (C95_fallback_false); after a forced set_hostname a node announces another name than its own endpoint has (C95_self_false); with a name set by the program the hashed bytes are ambiguous because there are no separators (C95_hash_false)."
  },
  {
   "property": "C96",
   "status": "partial",
   "theorems": [
    "Verif.Node.Relay.C96_once_partial",
    "Verif.Node.Relay.C96_origin",
    "Verif.Node.Relay.C96_twice_false",
    "Verif.Node.Relay.C96_lie_false",
    "Verif.Node.Relay.C96_fair_partial",
    "Verif.Node.Relay.C96_tree_partial",
    "Verif.Node.Relay.C96_report_partial"
   ],
   "note": "Over the streams of C87/C91, with arbitrary and changing tables. C96_origin holds also with refused writes; C96_once_partial assumes that no write is refused (without: C96_lie_false). One answer per message asked for is false (C96_twice_false). In trees (C96_tree_partial, C96_report_partial, by refinement of C71) every accepted message is delivered or reported, and in every fair execution the time comes when it has been (C96_fair_partial); assumed there: fixed tables, connections of the tree work, hop limit at least the distance, messages of a node to itself are not counted. Data messages only; no other messages decode as data messages (Ev.plain)."
  },
  {
   "property": "C97",
   "status": "partial",
   "theorems": [
    "Verif.IoStream.HandlesDns.C97_dns_safe",
    "Verif.IoStream.HandlesDns.C97_dns_base",
    "Verif.IoStream.HandlesDns.C97_dns_freed",
    "Verif.IoStream.Handles.C97_safe",
    "Verif.IoStream.Handles.C97_freed",
    "Verif.IoStream.Handles.C97_owner",
    "Verif.IoStream.Handles.C97_dangling",
    "Verif.IoStream.Handles.C97_leak",
    "Verif.IoStream.Handles.C97_loops",
    "Verif.IoStream.Handles.C97_close_own",
    "Verif.IoStream.Handles.C97_close_false",
    "Verif.IoStream.Handles.C97_close_partial",
    "Verif.IoStream.Handles.C97_run"
   ],
   "note": "All but the last clause is proved. On a loop of the application io_stream_close returns while a refused connection is still closing (C97_close_false, C97_close_partial); on a loop of the channel nothing is left (C97_close_own). libuv is the environment. With resolving of names as well (C97_dns_safe, C97_dns_freed); handles then behave as in a history without (C97_dns_base)."
  },
  {
   "property": "C98",
   "status": "partial",
   "theorems": [
    "Verif.Mem.Show.C98_inside",
    "Verif.Mem.Show.C98_spells",
    "Verif.Mem.Show.C98_bytes",
    "Verif.Mem.Show.C98_available",
    "Verif.Mem.Show.C98_figures_partial",
    "Verif.Mem.Show.C98_used_false",
    "Verif.Mem.Show.C98_sum",
    "Verif.Mem.Show.C98_settings",
    "Verif.Mem.Show.C98_get",
    "Verif.Mem.Show.C98_retry_zero_false"
   ],
   "note": "All but the used and free size is proved: these are computed with node size and node count exchanged and right only if nothing is available or there are exactly 256 nodes (C98_figures_partial, C98_used_false, C98_sum). Setting 0 write attempts makes every send report success without sending (C98_retry_zero_false). Calls do not overlap; the text around the numbers is left out."
  },
  {
   "property": "C99",
   "status": "partial",
   "theorems": [
    "Verif.Node.Reenter.C99_safe",
    "Verif.Node.Reenter.C99_polite",
    "Verif.Node.Reenter.C99_flags",
    "Verif.Node.Reenter.C99_once",
    "Verif.Node.Reenter.C99_self",
    "Verif.Node.Reenter.C99_abort_false",
    "Verif.Node.Reenter.C99_freed_false",
    "Verif.Node.Reenter.C99_pop_false",
    "Verif.Node.Reenter.C99_once_false"
   ],
   "note": "Proved for all runs in which no reset begins inside a callback (C99_safe), so for all applications that call none of proc, poll, reset and init in callbacks (C99_polite). Without that the code is unsafe: shutdown and proc in a stream callback abort the process, shutdown and poll in a callback of proc free what proc goes on using, and a reset while a message to oneself is handled removes the front of an empty list (C99_abort_false, C99_freed_false, C99_pop_false); a second proc can then run inside the first (C99_once_false). on_debug and callbacks made at once by io_stream_listen and io_stream_connect are not marked as callbacks of the channel."
  },
  {
   "property": "C100",
   "status": "partial",
   "theorems": [
    "Verif.Node.IpAddr.C100_quad_iff",
    "Verif.Node.IpAddr.C100_name",
    "Verif.Node.IpAddr.C100_name_inj",
    "Verif.Node.IpAddr.C100_text",
    "Verif.Node.IpAddr.C100_exact_partial",
    "Verif.Node.IpAddr.C100_only_if_written",
    "Verif.Node.IpAddr.C100_otherwise_any",
    "Verif.Node.IpAddr.C100_host_false",
    "Verif.Node.IpAddr.C100_v6_partial",
    "Verif.Node.IpAddr.C100_brackets_false",
    "Verif.Node.IpAddr.C100_port_false",
    "Verif.Node.IpAddr.C100_resolved"
   ],
   "note": "Proved for hosts that are dotted quads and ports from 1 to 65535 (C100_exact_partial), for names that were resolved (C100_resolved), and for IPv6 texts that libuv accepts (C100_v6_partial; the syntax of IPv6 is a parameter). Any other host does not lead to an error, as the results of uv_ip4_addr and uv_ip6_addr are not looked at: the node listens on all addresses of the machine or connects to its own machine (C100_otherwise_any, C100_host_false, C100_brackets_false). Without a port the system chooses one (C100_port_false). What uv_ip4_addr stores is taken from libuv."
  },
  {
   "property": "C101",
   "status": "partial",
   "theorems": [
    "Verif.Node.Delay.C101_delay_partial",
    "Verif.Node.Delay.C101_once_partial",
    "Verif.Node.Delay.C101_open",
    "Verif.Node.Delay.C101_defined_partial",
    "Verif.Node.Delay.C101_clock",
    "Verif.Node.Delay.C101_nonneg_partial",
    "Verif.Node.Delay.C101_overflow_false",
    "Verif.Node.Delay.C101_unasked_false",
    "Verif.Node.Delay.C101_negative_false",
    "Verif.Node.Delay.C101_callback_false"
   ],
   "note": "Proved for an other end that makes up no pongs (C101_delay_partial, C101_once_partial, C101_defined_partial, C101_nonneg_partial); C101_clock needs nothing. With an other end that makes up pongs: one with sequence number 0 is taken though no ping is unanswered (C101_unasked_false), and with the smallest time its subtraction overflows, which is undefined (C101_overflow_false). Microseconds of a second or more, or a second start with an earlier time, give negative delays (C101_negative_false). on_pong is given the empty ping of the message instead of the pong (C101_callback_false)."
  },
  {
   "property": "C102",
   "status": "partial",
   "theorems": [
    "Verif.Node.Loop.C102_copy",
    "Verif.Node.Loop.C102_default",
    "Verif.Node.Loop.C102_init",
    "Verif.Node.Loop.C102_one_loop_partial",
    "Verif.Node.Loop.C102_reset_ends_partial",
    "Verif.Node.Loop.C102_polite",
    "Verif.Node.Loop.C102_hang_false",
    "Verif.Node.Loop.C102_settings_false",
    "Verif.Node.Loop.C102_old_loop_false"
   ],
   "note": "Settings proved without conditions (C102_copy, C102_default, C102_init); channel and loop proved if the channel is not asked for while the node is not initialised (C102_one_loop_partial, C102_reset_ends_partial), so for every application that leaves the channel alone (C102_polite). Otherwise false of the code: get_iostream_channel before init gives a channel with a loop of its own and default settings that init keeps; a later reset with an operation unfinished runs another loop and never ends (C102_hang_false, C102_settings_false); between reset and init it takes the loop and settings of the life before (C102_old_loop_false)."
  },
  {
   "property": "C103",
   "status": "partial",
   "theorems": [
    "Verif.Node.Owner.C103_once",
    "Verif.Node.Owner.C103_safe_partial",
    "Verif.Node.Owner.C103_freed_partial",
    "Verif.Node.Owner.C103_reset_partial",
    "Verif.Node.Owner.C103_kept_false",
    "Verif.Node.Owner.C103_pointer_false",
    "Verif.Node.Owner.C103_late_false"
   ],
   "note": "Destruction once and at the last pointer proved without conditions (C103_once); the rest for an application that holds no pointer at the end of the node and connects nothing inside the callbacks of reset (C103_safe_partial, C103_freed_partial, C103_reset_partial). Both conditions are needed: owner_ is a plain pointer that is never cleared, so whatever is kept uses freed memory when it is given back (C103_kept_false for every such state, C103_pointer_false); a connection made in a callback while reset waits stays in connecting_list, whose destructor then runs a destructor that erases from it (C103_late_false)."
  },
  {
   "property": "C104",
   "status": "partial",
   "theorems": [
    "Verif.Node.PingIter.C104_safe_partial",
    "Verif.Node.PingIter.C104_exact_partial",
    "Verif.Node.PingIter.C104_protect_partial",
    "Verif.Node.PingIter.C104_iterator_partial",
    "Verif.Node.PingIter.C104_reset_partial",
    "Verif.Node.PingIter.C104_start_false",
    "Verif.Node.PingIter.C104_flag_false"
   ],
   "note": "Proved for an application that leaves HAS_PING_TIMER alone and does not call start inside proc (C104_safe_partial, C104_exact_partial, C104_iterator_partial, C104_protect_partial, C104_reset_partial). Otherwise false of the code: with the time set back inside proc the protective pop_front removes a timer in use, and the next clear_ping_timer erases a freed list node (C104_start_false); set_flag is public and lets HAS_PING_TIMER be cleared, which gives a second timer and reaches the protective code (C104_flag_false)."
  },
  {
   "property": "C105",
   "status": "partial",
   "theorems": [
    "Verif.Node.Created.C105_pair",
    "Verif.Node.Created.C105_stable",
    "Verif.Node.Created.C105_between_partial",
    "Verif.Node.Created.C105_creation_false",
    "Verif.Node.Created.C105_start_false",
    "Verif.Node.Created.C105_unstarted_false"
   ],
   "note": "Pair and stability proved for every history (C105_pair, C105_stable); the bounds if start does not set the time after the construction (C105_between_partial). False otherwise: set back by start, the time lies in the future (C105_start_false). The time is that of the first query with a positive clock and not of the construction, so the elder of two endpoints can have the later one (C105_creation_false); before the node is started answers are not kept (C105_unstarted_false)."
  }
 ]
}