{
 "claims": [
  {
   "property": "C01",
   "status": "proved",
   "theorems": [
    "Fstrm.Props.control_roundtrip"
   ],
   "note": ""
  },
  {
   "property": "C02",
   "status": "proved",
   "theorems": [
    "Fstrm.Props.decode_iff"
   ],
   "note": ""
  },
  {
   "property": "C03",
   "status": "proved",
   "theorems": [
    "Fstrm.Props.encode_exact",
    "Fstrm.Props.encodedSize_exact"
   ],
   "note": ""
  },
  {
   "property": "C04",
   "status": "proved",
   "theorems": [
    "Fstrm.Props.decode_safe",
    "Fstrm.Props.encode_safe"
   ],
   "note": ""
  },
  {
   "property": "C05",
   "status": "proved",
   "theorems": [
    "Fstrm.Props.decode_history_independent"
   ],
   "note": ""
  },
  {
   "property": "C06",
   "status": "partial",
   "theorems": [
    "Fstrm.Props.decode_encode_header_partial",
    "Fstrm.Props.header_limits_disagree"
   ],
   "note": "False for payloads of 505..512 bytes (header_limits_disagree); holds for total length <= 512."
  },
  {
   "property": "C07",
   "status": "proved",
   "theorems": [
    "Fstrm.Props.decode_encode_canonical",
    "Fstrm.Props.decode_injective"
   ],
   "note": ""
  },
  {
   "property": "C08",
   "status": "proved",
   "theorems": [
    "Fstrm.Props.match_iff"
   ],
   "note": ""
  },
  {
   "property": "C09",
   "status": "proved",
   "theorems": [
    "Fstrm.Props.accessors_any_history",
    "Fstrm.Props.contents_total",
    "Fstrm.Props.ctl_history_defined",
    "Fstrm.Props.accessors_after_build",
    "Fstrm.Props.accessors_after_calls",
    "Fstrm.Props.accessors_after_decode",
    "Fstrm.Props.getCt_ignores_type"
   ],
   "note": ""
  },
  {
   "property": "C10",
   "status": "proved",
   "theorems": [
    "Fstrm.Props.writer_stream",
    "Fstrm.Props.writer_stream_bidir"
   ],
   "note": "Unidirectional and bidirectional writers, every transport and grouping of calls."
  },
  {
   "property": "C11",
   "status": "proved",
   "theorems": [
    "Fstrm.Props.batching_unobservable",
    "Fstrm.Props.iovecs_bounded"
   ],
   "note": "writev_overflow: more than INT_MAX/2 frames in one call overflow a signed int."
  },
  {
   "property": "C12",
   "status": "partial",
   "theorems": [
    "Fstrm.Props.empty_frame_corrupts",
    "Fstrm.Props.reader_reads_stream"
   ],
   "note": "False: an empty frame is the escape sequence (empty_frame_corrupts). Missing part of the statement: empty frames; non-empty ones are covered by C10 and C17."
  },
  {
   "property": "C13",
   "status": "partial",
   "theorems": [
    "Fstrm.Props.write_prefix_partial",
    "Fstrm.Props.large_frame_prefix_wrong"
   ],
   "note": "Holds below 2^32 bytes; false above (large_frame_prefix_wrong)."
  },
  {
   "property": "C14",
   "status": "proved",
   "theorems": [
    "Fstrm.Props.writer_phases",
    "Fstrm.Props.write_after_close",
    "Fstrm.Props.write_after_failure"
   ],
   "note": ""
  },
  {
   "property": "C15",
   "status": "partial",
   "theorems": [
    "Fstrm.Props.writer_open_bidir_partial",
    "Fstrm.Props.negotiation_needs_first"
   ],
   "note": "False: only the writer's first content type is considered (negotiation_needs_first); exact characterisation of what the code does in writer_open_bidir_partial."
  },
  {
   "property": "C16",
   "status": "proved",
   "theorems": [
    "Fstrm.Props.negotiated_sound"
   ],
   "note": ""
  },
  {
   "property": "C17",
   "status": "proved",
   "theorems": [
    "Fstrm.Props.reader_reads_stream",
    "Fstrm.Props.reader_reads_stream_bidir"
   ],
   "note": ""
  },
  {
   "property": "C18",
   "status": "proved",
   "theorems": [
    "Fstrm.Props.file_round_trip",
    "Fstrm.Props.file_close_durable",
    "Fstrm.Props.file_refuses_empty"
   ],
   "note": "Holds for every history and every script of I/O errors; frames must fit the reader's maximum. Empty frames are refused by file writers."
  },
  {
   "property": "C19",
   "status": "proved",
   "theorems": [
    "Fstrm.Props.reader_truncated"
   ],
   "note": ""
  },
  {
   "property": "C20",
   "status": "partial",
   "theorems": [
    "Fstrm.Props.stop_means_stop_partial",
    "Fstrm.Props.truncation_looks_clean"
   ],
   "note": "False for transports that report the end of input as stop, in particular files (truncation_looks_clean, every truncation point)."
  },
  {
   "property": "C21",
   "status": "partial",
   "theorems": [
    "Fstrm.Props.oversize_never_delivered_partial",
    "Fstrm.Props.oversize_reports_success"
   ],
   "note": "False (oversize_reports_success, for every maximum and length); what remains true is that no data is delivered and later reads fail."
  },
  {
   "property": "C22",
   "status": "proved",
   "theorems": [
    "Fstrm.Props.delivered_are_slices",
    "Fstrm.Props.reads_parse_received"
   ],
   "note": ""
  },
  {
   "property": "C23",
   "status": "partial",
   "theorems": [
    "Fstrm.Props.reader_safe_partial",
    "Fstrm.Props.reader_safe_pipe_partial",
    "Fstrm.Props.reader_only_zero_array",
    "Fstrm.Props.reader_zero_length_ub"
   ],
   "note": "reader_only_zero_array: for every peer the zero-length array is the only undefined behaviour. False for a control frame length of zero (zero-length VLA, reader_zero_length_ub); holds for every other peer and every transport outcome."
  },
  {
   "property": "C24",
   "status": "proved",
   "theorems": [
    "Fstrm.Props.reader_open_sound",
    "Fstrm.Props.reader_open_iff",
    "Fstrm.Props.reader_reads_stream_bidir"
   ],
   "note": ""
  },
  {
   "property": "C25",
   "status": "partial",
   "theorems": [
    "Fstrm.Props.accept_common_partial",
    "Fstrm.Props.empty_accept"
   ],
   "note": "False when no type is common: the empty ACCEPT means anything (empty_accept)."
  },
  {
   "property": "C26",
   "status": "partial",
   "theorems": [
    "Fstrm.Props.known_control_ignored_partial",
    "Fstrm.Props.unknown_control_fatal"
   ],
   "note": "False for every unknown control type (unknown_control_fatal); known types other than STOP are skipped."
  },
  {
   "property": "C28",
   "status": "proved",
   "theorems": [
    "Fstrm.Props.writer_discipline",
    "Fstrm.Props.reader_discipline"
   ],
   "note": "For transports that have a close callback."
  },
  {
   "property": "C29",
   "status": "partial",
   "theorems": [
    "Fstrm.Props.writer_destroy_closes_partial",
    "Fstrm.Props.writer_destroy_leaks",
    "Fstrm.Props.reader_destroy_closes_partial",
    "Fstrm.Props.reader_destroy_leaks",
    "Fstrm.Props.sock_descriptor_destroy_partial",
    "Fstrm.Props.sock_descriptor_leak"
   ],
   "note": "False after failed handshakes, malformed or oversized input (writer_destroy_leaks, reader_destroy_leaks); for socket writers, down to the descriptor: sock_descriptor_leak; without failing calls proved (sock_descriptor_destroy_partial)."
  },
  {
   "property": "C30",
   "status": "proved",
   "theorems": [
    "Fstrm.Props.sock_read_exact",
    "Fstrm.Props.sock_read_iff",
    "Fstrm.Props.sock_source",
    "Fstrm.Props.sock_writer_open_partial"
   ],
   "note": ""
  },
  {
   "property": "C31",
   "status": "partial",
   "theorems": [
    "Fstrm.Props.sock_write_exact_partial",
    "Fstrm.Props.sock_write_complete",
    "Fstrm.Props.sock_short_send",
    "Fstrm.Props.sock_write_duplicates",
    "Fstrm.Props.sock_single_buffer_ub"
   ],
   "note": "False: after a short send the code resends earlier buffers and reads past the iovec array (sock_write_duplicates, sock_single_buffer_ub)."
  },
  {
   "property": "C32",
   "status": "proved",
   "theorems": [
    "Fstrm.Props.queue_is_fifo",
    "Fstrm.Props.queue_init_iff",
    "Fstrm.Props.queue_offset_wraps"
   ],
   "note": "The 4 GiB condition is necessary (queue_offset_wraps)."
  },
  {
   "property": "C33",
   "status": "proved",
   "theorems": [
    "Fstrm.Props.tso_spsc",
    "Fstrm.Props.tso_exclusive"
   ],
   "note": "x86-TSO as in my_memory_barrier.h for x86_64; C11 data-race semantics are not modelled; ia64 is C112."
  },
  {
   "property": "C34",
   "status": "proved",
   "theorems": [
    "Fstrm.Props.mutex_linearizable",
    "Fstrm.Props.mutex_order",
    "Fstrm.Props.lockfree_two_producers_lose"
   ],
   "note": ""
  },
  {
   "property": "C35",
   "status": "partial",
   "theorems": [
    "Fstrm.Props.option_defaults",
    "Fstrm.Props.setter_effect",
    "Fstrm.Props.setter_range_partial",
    "Fstrm.Props.input_queue_size_iff",
    "Fstrm.Props.input_queue_size_wrong",
    "Fstrm.Props.content_type_option",
    "Fstrm.Props.max_frame_size_option"
   ],
   "note": "False for input_queue_size: every even number is accepted, not only powers of two in the documented range (input_queue_size_wrong)."
  },
  {
   "property": "C36",
   "status": "partial",
   "theorems": [
    "Fstrm.Props.iothr_init_default",
    "Fstrm.Props.iothr_init_ok_partial",
    "Fstrm.Props.iothr_init_ub",
    "Fstrm.Props.iothr_init_ub_all"
   ],
   "note": "False for input_queue_size values that are no power of two: the failure path destroys queues that do not exist (iothr_init_ub)."
  },
  {
   "property": "C37",
   "status": "proved",
   "theorems": [
    "Fstrm.Props.freed_exactly_once"
   ],
   "note": ""
  },
  {
   "property": "C38",
   "status": "proved",
   "theorems": [
    "Fstrm.Props.order_preserved"
   ],
   "note": ""
  },
  {
   "property": "C39",
   "status": "proved",
   "theorems": [
    "Fstrm.Props.no_loss",
    "Fstrm.Props.no_loss_start",
    "Fstrm.Props.iothr_stream"
   ],
   "note": "no_loss is the claim in terms of calls on the writer; iothr_stream adds the bytes given to the transport for unidirectional writers."
  },
  {
   "property": "C40",
   "status": "partial",
   "theorems": [
    "Fstrm.Props.output_limits_partial",
    "Fstrm.Props.output_limits_wrong",
    "Fstrm.Props.iothr_safe"
   ],
   "note": "The byte limit is false for payloads within 4 bytes of 4 GiB, where the 32-bit counter wraps (output_limits_wrong)."
  },
  {
   "property": "C41",
   "status": "proved",
   "theorems": [
    "Fstrm.Props.reopen_rate"
   ],
   "note": ""
  },
  {
   "property": "C42",
   "status": "partial",
   "theorems": [
    "Fstrm.Props.first_open_partial",
    "Fstrm.Props.first_open_wrong"
   ],
   "note": "False when the monotonic clock is below reopen_interval."
  },
  {
   "property": "C43",
   "status": "proved",
   "theorems": [
    "Fstrm.Props.queue_handles",
    "Fstrm.Props.queue_handles_distinct",
    "Fstrm.Props.queue_handle_idx"
   ],
   "note": ""
  },
  {
   "property": "C44",
   "status": "proved",
   "theorems": [
    "Fstrm.Props.shutdown_terminates",
    "Fstrm.Props.shutdown_terminates_safe"
   ],
   "note": ""
  },
  {
   "property": "C45",
   "status": "partial",
   "theorems": [
    "Fstrm.Props.flush_after_timeout_partial",
    "Fstrm.Props.flush_timeout_wrong"
   ],
   "note": "False: signals restart the wait, so data can stay buffered without bound in time (until the output queue or the buffer hint is reached)."
  },
  {
   "property": "C57",
   "status": "partial",
   "theorems": [
    "Fstrm.Props.print_printable",
    "Fstrm.Props.print_exact",
    "Fstrm.Props.print_injective_partial",
    "Fstrm.Props.print_not_injective"
   ],
   "note": "Injectivity fails for strings with backslashes (print_not_injective)."
  },
  {
   "property": "C58",
   "status": "proved",
   "theorems": [
    "Fstrm.Props.vec_is_list",
    "Fstrm.Props.vec_reserve_room",
    "Fstrm.Props.vec_reset_shrinks",
    "Fstrm.Props.vec_detach_hands_out"
   ],
   "note": "extend with an aliased argument is not modelled."
  },
  {
   "property": "C59",
   "status": "partial",
   "theorems": [
    "Fstrm.Props.port_accepted_iff",
    "Fstrm.Props.tcp_port_partial",
    "Fstrm.Props.tcp_writer_created",
    "Fstrm.Props.tcp_port_quirks",
    "Fstrm.Props.unix_writer_created"
   ],
   "note": "Unix part proved. Tcp part false for the empty string and negative numerals (tcp_port_quirks); port_accepted_iff is the exact characterisation. inet_pton is a parameter."
  },
  {
   "property": "C60",
   "status": "partial",
   "theorems": [
    "Fstrm.Props.writer_safe_partial",
    "Fstrm.Props.writer_safe_uni",
    "Fstrm.Props.writer_only_zero_array",
    "Fstrm.Props.writer_zero_length_ub"
   ],
   "note": "writer_only_zero_array: for every peer the zero-length array is the only undefined behaviour. Proved outright for unidirectional writers; a bidirectional peer answering with a control frame length of zero triggers a zero-length VLA (writer_zero_length_ub)."
  },
  {
   "property": "C61",
   "status": "proved",
   "theorems": [
    "Fstrm.Props.file_always_prefix",
    "Fstrm.Props.file_crash_read"
   ],
   "note": ""
  },
  {
   "property": "C62",
   "status": "partial",
   "theorems": [
    "Fstrm.Props.file_writer_safe_partial",
    "Fstrm.Props.file_reader_safe_partial",
    "Fstrm.Props.file_reader_only_zero_array",
    "Fstrm.Props.stdout_reuse_ub"
   ],
   "note": "file_reader_only_zero_array: for every contents of a named file the zero-length array is the only undefined behaviour of readers. False for \"-\" (reuse of closed stdout) and for files containing eight zero bytes in a row (C23)."
  },
  {
   "property": "C63",
   "status": "partial",
   "theorems": [
    "Fstrm.Props.sock_writer_safe_partial",
    "Fstrm.Props.sock_writer_only_zero_array",
    "Fstrm.Props.sock_single_buffer_ub"
   ],
   "note": "sock_writer_only_zero_array: without short sends the zero-length array is the only undefined behaviour, for every peer. Needs no short sends (C31) and no zero control frame length from the peer (C60)."
  },
  {
   "property": "C64",
   "status": "proved",
   "theorems": [
    "Fstrm.Props.iothr_file_round_trip"
   ],
   "note": ""
  },
  {
   "property": "C65",
   "status": "proved",
   "theorems": [
    "Fstrm.Props.reader_close_finish",
    "Fstrm.Props.writer_close_finish",
    "Fstrm.Props.close_not_open"
   ],
   "note": ""
  },
  {
   "property": "C46",
   "status": "partial",
   "theorems": [
    "Fstrm.Props.capture_files_partial",
    "Fstrm.Props.capture_files_false"
   ],
   "note": "Proved unless a client announces one of the four lengths 0xFFFFFFFC to 0xFFFFFFFF; for those it is false."
  },
  {
   "property": "C47",
   "status": "partial",
   "theorems": [
    "Fstrm.Props.capture_recorded_partial",
    "Fstrm.Props.capture_segmentation_partial",
    "Fstrm.Props.capture_sofar_partial",
    "Fstrm.Props.hostile_length"
   ],
   "note": "Proved unless a client announces one of the four largest lengths: there the code reads outside its buffer (hostile_length)."
  },
  {
   "property": "C48",
   "status": "partial",
   "theorems": [
    "Fstrm.Props.capture_rejected_partial",
    "Fstrm.Props.recorded_before_handshake"
   ],
   "note": "False: data frames before READY are recorded. Proved: nothing is recorded after a frame was rejected."
  },
  {
   "property": "C49",
   "status": "partial",
   "theorems": [
    "Fstrm.Props.capture_accepts_partial",
    "Fstrm.Props.ready_512_rejected"
   ],
   "note": "False for a READY frame of exactly 512 bytes. Proved for all shorter ones that fit the buffer."
  },
  {
   "property": "C50",
   "status": "partial",
   "theorems": [
    "Fstrm.Props.capture_skips_partial",
    "Fstrm.Props.capture_no_stall_partial",
    "Fstrm.Props.oversize_stall"
   ],
   "note": "False when one read fills the whole buffer: the connection stalls. Proved when reads leave eight bytes of room, and that exactly the frames that fit are recorded."
  },
  {
   "property": "C51",
   "status": "partial",
   "theorems": [
    "Fstrm.Props.capture_safe_partial",
    "Fstrm.Props.hostile_length"
   ],
   "note": "False for the length 0xFFFFFFFC. Proved for all lengths below 0xFFFFFFFC."
  },
  {
   "property": "C52",
   "status": "proved",
   "theorems": [
    "Fstrm.Props.capture_limit",
    "Fstrm.Props.capture_active",
    "Fstrm.Props.capture_accept"
   ],
   "note": ""
  },
  {
   "property": "C53",
   "status": "partial",
   "theorems": [
    "Fstrm.Props.capture_rotation_partial",
    "Fstrm.Props.rotation_overwrites"
   ],
   "note": "False with a fixed file name: rotation truncates the file just closed. Proved while no file name is used twice and no write fails."
  },
  {
   "property": "C66",
   "status": "partial",
   "theorems": [
    "Fstrm.Props.capture_answers_partial",
    "Fstrm.Props.capture_hangup_partial",
    "Fstrm.Props.hostile_length"
   ],
   "note": "Proved unless a client announces one of the four largest lengths: there the code reads outside its buffer (hostile_length)."
  },
  {
   "property": "C54",
   "status": "partial",
   "theorems": [
    "Fstrm.Props.dump_faithful_partial",
    "Fstrm.Props.dump_copies_partial",
    "Fstrm.Props.dump_oversize_ub",
    "Fstrm.Props.dump_arguments"
   ],
   "note": "Proved for frames up to 1048576 bytes; a larger frame makes fstrm_dump use an uninitialised pointer (dump_oversize_ub)."
  },
  {
   "property": "C55",
   "status": "partial",
   "theorems": [
    "Fstrm.Props.dump_faithful_partial",
    "Fstrm.Props.dump_accepts_truncated"
   ],
   "note": "False: an input cut off anywhere inside or between frames is accepted with status 0 (dump_accepts_truncated, for every cut). What status 0 does tell is proved in dump_faithful_partial."
  },
  {
   "property": "C56",
   "status": "partial",
   "theorems": [
    "Fstrm.Props.replay_sends_partial",
    "Fstrm.Props.replay_sound_partial",
    "Fstrm.Props.replay_completes",
    "Fstrm.Props.replay_oversize_ub"
   ],
   "note": "Proved for frames up to 1048576 bytes; a larger one makes fstrm_replay use an uninitialised pointer (replay_oversize_ub)."
  },
  {
   "property": "C67",
   "status": "proved",
   "theorems": [
    "Fstrm.Props.file_reader_exact"
   ],
   "note": ""
  },
  {
   "property": "C68",
   "status": "proved",
   "theorems": [
    "Fstrm.Props.dump_prints_lines"
   ],
   "note": "For runs that end; a frame above the limit is undefined behaviour (C54). That every line is there needs that printing does not fail (C103)."
  },
  {
   "property": "C69",
   "status": "partial",
   "theorems": [
    "Fstrm.Props.replay_reports_partial",
    "Fstrm.Props.replay_ignores_close",
    "Fstrm.Props.replay_skips_files"
   ],
   "note": "False: a failed close and skipped files leave the exit status 0. Proved: status 0 without any message means that everything read from the files was sent."
  },
  {
   "property": "C70",
   "status": "partial",
   "theorems": [
    "Fstrm.Props.writer_conns",
    "Fstrm.Props.writer_session_conns",
    "Fstrm.Props.sock_conns_partial",
    "Fstrm.Props.sock_session_conns_partial",
    "Fstrm.Props.writer_repeats_ready"
   ],
   "note": "Proved for every transport, and for sockets as long as the kernel takes every sendmsg whole. After a failed handshake the connection is kept and READY is sent again on it (writer_repeats_ready)."
  },
  {
   "property": "C27",
   "status": "partial",
   "theorems": [
    "Fstrm.Props.net_no_deadlock_partial",
    "Fstrm.Props.net_no_deadlock_capacity_partial",
    "Fstrm.Props.net_compatible_fails"
   ],
   "note": "Proved for every configuration in which the reader takes the writer's first content type, every frame list, every delivery schedule and pipes of every capacity of at least one byte. The full statement is false (net_compatible_fails): with a common content type that is not the writer's first one, open fails."
  },
  {
   "property": "C71",
   "status": "proved",
   "theorems": [
    "Fstrm.Props.stdout_appends",
    "Fstrm.Props.stdout_close_durable",
    "Fstrm.Props.dash_opens_no_file"
   ],
   "note": "Up to the end of the process's standard output; reopening after close is undefined behaviour (stdout_reuse_ub, C62)."
  },
  {
   "property": "C72",
   "status": "proved",
   "theorems": [
    "Fstrm.Props.fleet_safe",
    "Fstrm.Props.fleet_delivers",
    "Fstrm.Props.fleet_bounded",
    "Fstrm.Props.fleet_progress",
    "Fstrm.Props.fleet_files"
   ],
   "note": "A client whose connection breaks is observed by what the server received and wrote; what its own calls return after the break is not part of this claim. Output written means that fwrite took it. READY frames shorter than 512 bytes (C49) and server buffers below 2^31 bytes."
  },
  {
   "property": "C73",
   "status": "partial",
   "theorems": [
    "Fstrm.Props.iothr_conns",
    "Fstrm.Props.iothr_stream_bidir",
    "Fstrm.Props.iothr_sock_conns_partial",
    "Fstrm.Props.iothr_sock_stream_partial"
   ],
   "note": "Proved for every transport, and for sockets as long as the kernel takes every sendmsg whole."
  },
  {
   "property": "C74",
   "status": "proved",
   "theorems": [
    "Fstrm.Props.iofleet_safe",
    "Fstrm.Props.iofleet_delivers",
    "Fstrm.Props.iofleet_progress",
    "Fstrm.Props.iofleet_bounded",
    "Fstrm.Props.iofleet_files"
   ],
   "note": "A client whose connection breaks is observed by what the server received and wrote; what its own calls return after the break is not part of this claim. Output written means that fwrite took it; the clock has reached the reopen interval when the I/O thread starts; READY frames shorter than 512 bytes (C49) and server buffers below 2^31 bytes. While an I/O thread is blocked in a call of its writer the program's other threads are taken to stand still; their steps can be put after the blocked call."
  },
  {
   "property": "C75",
   "status": "partial",
   "theorems": [
    "Fstrm.Props.iothr_net_partial",
    "Fstrm.Props.iothr_net_capacity_partial",
    "Fstrm.Props.net_compatible_fails"
   ],
   "note": "Proved for every schedule, unlimited pipes and pipes of every capacity of at least one byte, and every configuration in which the reader takes the writer's first content type; with another common content type open fails (net_compatible_fails). The clock has reached the reopen interval when the I/O thread starts."
  },
  {
   "property": "C76",
   "status": "partial",
   "theorems": [
    "Fstrm.Props.writer_get_control_partial",
    "Fstrm.Props.writer_get_finish",
    "Fstrm.Props.reader_get_control_partial",
    "Fstrm.Props.reader_get_stop",
    "Fstrm.Props.writer_get_control_null",
    "Fstrm.Props.writer_get_control_stale",
    "Fstrm.Props.reader_get_control_null"
   ],
   "note": "What is reported while the stream is open is proved to be what was exchanged. That success means a frame of that type was returned is false: NULL is stored for a frame that was not exchanged, and after a failed reopening the frame stored may be of another type."
  },
  {
   "property": "C77",
   "status": "proved",
   "theorems": [
    "Fstrm.Props.capture_rotations",
    "Fstrm.Props.capture_rotations_end",
    "Fstrm.Props.capture_begins",
    "Fstrm.Props.capture_exit_status"
   ],
   "note": "The events of the log that concern the output: calls of time and open, data frames written, files closed. Signals are handled when the event loop gets to them."
  },
  {
   "property": "C78",
   "status": "partial",
   "theorems": [
    "Fstrm.Props.reconnect_once",
    "Fstrm.Props.reconnect_sock_partial"
   ],
   "note": "Proved for every transport on which a peer receives a beginning of what was written; for unix and tcp writers as long as the kernel takes every sendmsg whole (after a short send bytes are sent twice, sock_write_duplicates). Server buffers below 2^31 bytes."
  },
  {
   "property": "C79",
   "status": "proved",
   "theorems": [
    "Fstrm.Props.queues_safe",
    "Fstrm.Props.queues_accept"
   ],
   "note": "x86-64 (TSO) and ia64 for the lock-free queue, the mutex on other machines, one producer thread per such queue as the API demands; sequential consistency for data guarded by the mutex. Each step contains at most one access to shared memory."
  },
  {
   "property": "C80",
   "status": "proved",
   "theorems": [
    "Fstrm.Props.queues_freed_exactly_once",
    "Fstrm.Props.queues_order",
    "Fstrm.Props.queues_delivery",
    "Fstrm.Props.queues_settled",
    "Fstrm.Props.queues_limits"
   ],
   "note": "Machines as for C79. Delivery is stated for unidirectional writers, the clock having reached the reopen interval when the I/O thread starts. That producers have finished means that their submissions have taken effect: with the mutex that submit has returned, with the lock-free queue that moreover the producer's stores have reached memory (queues_settled)."
  },
  {
   "property": "C81",
   "status": "partial",
   "theorems": [
    "Fstrm.Props.capture_rejects",
    "Fstrm.Props.capture_listens",
    "Fstrm.Props.capture_starts",
    "Fstrm.Props.removal_partial",
    "Fstrm.Props.failed_start_destroys",
    "Fstrm.Props.ordinary_file_removed"
   ],
   "note": "Proved: options that are unusable have no effect at all (capture_rejects); a running server has sensible options and listens at the named address only (capture_listens); usable options start it (capture_starts). False: if listening fails the output file is already truncated and the path removed (failed_start_destroys), and what is removed need not be a socket (ordinary_file_removed). removal_partial bounds what is removed. How options are read from the command line: C89."
  },
  {
   "property": "C82",
   "status": "partial",
   "theorems": [
    "Fstrm.Props.iothr_clocks",
    "Fstrm.Props.build_clocks",
    "Fstrm.Props.iothr_clocks_exist_partial",
    "Fstrm.Props.iothr_no_clock_ub"
   ],
   "note": "Proved for platforms on which some monotonic clock can be read and waited for. False otherwise: initialisation is undefined behaviour instead of returning NULL (iothr_no_clock_ub)."
  },
  {
   "property": "C83",
   "status": "partial",
   "theorems": [
    "Fstrm.Props.replay_connects_partial",
    "Fstrm.Props.replay_rejects_partial",
    "Fstrm.Props.capture_replay_meet_partial",
    "Fstrm.Props.command_lines_meet_partial",
    "Fstrm.Props.empty_path_wrong"
   ],
   "note": "Proved for all options and command lines that are accepted, except an empty unix path, for which the two programs use different addresses (empty_path_wrong). Ports as in C59."
  },
  {
   "property": "C84",
   "status": "proved",
   "theorems": [
    "Fstrm.Props.queues_shutdown_terminates"
   ],
   "note": "For both queue implementations, down to single memory accesses and store buffers."
  },
  {
   "property": "C85",
   "status": "partial",
   "theorems": [
    "Fstrm.Props.notify_partial",
    "Fstrm.Props.notify_never",
    "Fstrm.Props.notify_wrong",
    "Fstrm.Props.queues_notify"
   ],
   "note": "False: the number compared with the threshold is that of the free entries, so with threshold 2 and a queue of eight the thread is not woken by the second submission (notify_wrong), and with a threshold not below the queue size never (notify_never). Proved: it is woken exactly when destroy is called or the free entries of a queue fall from above the threshold to it; with the real queues, exactly when insert reports that many free entries."
  },
  {
   "property": "C86",
   "status": "partial",
   "theorems": [
    "Fstrm.Props.memory_accounted",
    "Fstrm.Props.no_leak_partial",
    "Fstrm.Props.leak_on_reopen",
    "Fstrm.Props.writer_life"
   ],
   "note": "False: a reader that is opened again after its stream ended loses the STOP frame of the earlier connection, because fstrm__reader_next_data overwrites the pointer (leak_on_reopen). Proved for all histories: no access to and no free of a block that is not allocated beyond what the value-level model already reports as undefined behaviour, and the exact set of blocks allocated at any time; no leak without such a reopening. When an allocation fails the process is aborted (C125)."
  },
  {
   "property": "C87",
   "status": "proved",
   "theorems": [
    "Fstrm.Props.control_pointer_valid",
    "Fstrm.Props.data_pointer_valid",
    "Fstrm.Props.ct_pointer_valid"
   ],
   "note": "Over the heap model of C86. The value of a control object can change when the writer or reader is opened again (C76)."
  },
  {
   "property": "C88",
   "status": "proved",
   "theorems": [
    "Fstrm.Props.file_writer_memory",
    "Fstrm.Props.file_reader_memory",
    "Fstrm.Props.unix_writer_memory",
    "Fstrm.Props.tcp_writer_memory",
    "Fstrm.Props.iothr_memory"
   ],
   "note": "Over the heap model of C86. The memory of the I/O thread is followed along the calls it makes on its writer; the queues' contents belong to the clients (C33)."
  },
  {
   "property": "C89",
   "status": "proved",
   "theorems": [
    "Fstrm.Props.capture_reads",
    "Fstrm.Props.replay_reads",
    "Fstrm.Props.capture_command_line",
    "Fstrm.Props.replay_command_line"
   ],
   "note": "Values that are arguments of their own do not start with - (except just - and negative numbers); see C92 for what may go wrong otherwise."
  },
  {
   "property": "C90",
   "status": "proved",
   "theorems": [
    "Fstrm.Props.replay_accepts",
    "Fstrm.Props.replay_null_free"
   ],
   "note": "For executions that get there: undefined behaviour before (C92) ends the execution of the model."
  },
  {
   "property": "C91",
   "status": "proved",
   "theorems": [
    "Fstrm.Props.env_arguments",
    "Fstrm.Props.env_arguments_global",
    "Fstrm.Props.words_exist"
   ],
   "note": "For the options of both programs; names of programs up to 256 characters."
  },
  {
   "property": "C92",
   "status": "partial",
   "theorems": [
    "Fstrm.Props.capture_arguments_partial",
    "Fstrm.Props.replay_arguments_partial",
    "Fstrm.Props.capture_ttt",
    "Fstrm.Props.replay_ttt",
    "Fstrm.Props.capture_file",
    "Fstrm.Props.capture_null",
    "Fstrm.Props.capture_number",
    "Fstrm.Props.no_arguments",
    "Fstrm.Props.replay_past_end",
    "Fstrm.Props.capture_past_end"
   ],
   "note": "False: -ttt and argument files overrun queue_list, --argv-file -5 dereferences NULL, atoi is called with numbers out of range, argc 0 is not handled, and memory behind the array of options is read whenever its last option is used. Proved for arguments that avoid these (except for the last, which is unavoidable with fstrm_replay)."
  },
  {
   "property": "C93",
   "status": "partial",
   "theorems": [
    "Fstrm.Props.one_address_partial",
    "Fstrm.Props.capture_both"
   ],
   "note": "Proved for fstrm_replay; fstrm_capture accepts both and listens at the path only (capture_both)."
  },
  {
   "property": "C94",
   "status": "partial",
   "theorems": [
    "Fstrm.Props.capture_killed_partial",
    "Fstrm.Props.capture_killed_contents_partial",
    "Fstrm.Props.capture_killed_false"
   ],
   "note": "False: the result of fflush after START and on SIGHUP is ignored; if it fails the C library drops the buffer, and the program goes on (capture_killed_false: START is missing, status 0). Proved if no fflush before the last call has failed, for clients that do not announce one of the four largest lengths (C51). The machine does not crash: what was passed on to the kernel is kept."
  },
  {
   "property": "C95",
   "status": "proved",
   "theorems": [
    "Fstrm.Props.capture_sighup"
   ],
   "note": "The recorded frames are the events of the log; that they are the frames the clients sent is C47. No crash of the machine."
  },
  {
   "property": "C96",
   "status": "partial",
   "theorems": [
    "Fstrm.Props.capture_exit_partial",
    "Fstrm.Props.capture_exit_stream_partial",
    "Fstrm.Props.capture_exit_false"
   ],
   "note": "False: the result of fclose is ignored (capture_exit_false). Proved if all flushing succeeds."
  },
  {
   "property": "C97",
   "status": "proved",
   "theorems": [
    "Fstrm.Props.capture_write_error"
   ],
   "note": "A write is a call of fwrite; errors that only fflush and fclose see are the subject of C94 and C96."
  },
  {
   "property": "C98",
   "status": "proved",
   "theorems": [
    "Fstrm.Props.sock_descriptors",
    "Fstrm.Props.sock_destroy_descriptors",
    "Fstrm.Props.sock_descriptor_held",
    "Fstrm.Props.sock_descriptor_closed",
    "Fstrm.Props.sock_refines"
   ],
   "note": "Other parts of the process close only their own descriptors; close frees the number whatever it returns, as on Linux. Destroying without closing: C29. sock_refines: the model with descriptors has the same results and bytes as the one used for C30, C31, C63 and C70."
  },
  {
   "property": "C99",
   "status": "partial",
   "theorems": [
    "Fstrm.Props.sock_not_inherited_partial",
    "Fstrm.Props.sock_destroy_not_inherited_partial",
    "Fstrm.Props.sock_inherited"
   ],
   "note": "False on kernels that refuse SOCK_CLOEXEC with EINVAL: a program started between socket and fcntl gets the socket (sock_inherited). Proved where SOCK_CLOEXEC is known, or no program is started in this window and fcntl works."
  },
  {
   "property": "C100",
   "status": "partial",
   "theorems": [
    "Fstrm.Props.sock_no_sigpipe_partial",
    "Fstrm.Props.sock_destroy_no_sigpipe_partial",
    "Fstrm.Props.sock_sigpipe"
   ],
   "note": "False on systems that have neither MSG_NOSIGNAL nor SO_NOSIGPIPE (sock_sigpipe). Proved for all others."
  },
  {
   "property": "C101",
   "status": "proved",
   "theorems": [
    "Fstrm.Props.callbacks_confined",
    "Fstrm.Props.callbacks_over"
   ],
   "note": "The writer must not be open when it is handed to fstrm_iothr_init."
  },
  {
   "property": "C102",
   "status": "partial",
   "theorems": [
    "Fstrm.Props.destroy_returns_partial",
    "Fstrm.Props.destroy_waits_for_peer",
    "Fstrm.Props.destroy_hangs"
   ],
   "note": "False of the code: a peer that keeps the connection open and sends only part of ACCEPT and FINISH keeps destroy waiting forever (destroy_hangs; destroy_waits_for_peer for every such part and every program that sends all its payloads). Proved: it has returned once all of ACCEPT and FINISH has arrived."
  },
  {
   "property": "C103",
   "status": "partial",
   "theorems": [
    "Fstrm.Props.dump_faithful_partial",
    "Fstrm.Props.dump_print_failure_unnoticed",
    "Fstrm.Props.dump_prints_nothing"
   ],
   "note": "False: the exit status does not depend on what happens on standard output (dump_print_failure_unnoticed), even if nothing could be printed (dump_prints_nothing). Proved: a sublist of the right lines in every case, the right lines if nothing fails on standard output."
  },
  {
   "property": "C104",
   "status": "partial",
   "theorems": [
    "Fstrm.Props.dump_dash_partial",
    "Fstrm.Props.dump_dash_empty",
    "Fstrm.Props.dump_dash_unreadable",
    "Fstrm.Props.dump_arguments"
   ],
   "note": "False for every stream with a data frame: the copy is not a stream of frames a reader accepts, and reading it back with fstrm_dump is undefined behaviour (dump_dash_unreadable). Proved: what is on standard output for every input and every failure, and that it is a valid stream if there are no data frames."
  },
  {
   "property": "C105",
   "status": "proved",
   "theorems": [
    "Fstrm.Props.submit_wait_free",
    "Fstrm.Props.submit_alone",
    "Fstrm.Props.submit_waits_for_stores_only",
    "Fstrm.Props.submit_waits_for_mutex_only",
    "Fstrm.Props.mutex_released"
   ],
   "note": "Until fstrm_iothr_destroy is called. On ia64 submit waits for its own stores to reach memory. Steps are accesses to the queue; pthread_cond_signal does not block. The unlock by the I/O thread and what it does with the entry next are one step of the model."
  },
  {
   "property": "C106",
   "status": "proved",
   "theorems": [
    "Fstrm.Props.accepted_bounded"
   ],
   "note": "For payloads with a free function; a call of submit that has not returned is not counted."
  },
  {
   "property": "C107",
   "status": "proved",
   "theorems": [
    "Fstrm.Props.capture_buffers",
    "Fstrm.Props.capture_memory"
   ],
   "note": "For runs without undefined behaviour (C51). Memory for other purposes than the buffers of connections is not counted."
  },
  {
   "property": "C108",
   "status": "proved",
   "theorems": [
    "Fstrm.Props.capture_refuses_mistakes",
    "Fstrm.Props.replay_refuses_mistakes",
    "Fstrm.Props.capture_refuses_words",
    "Fstrm.Props.replay_refuses_words",
    "Fstrm.Props.capture_refuses_behind",
    "Fstrm.Props.replay_refuses_behind",
    "Fstrm.Props.capture_refuses_missing",
    "Fstrm.Props.replay_refuses_missing"
   ],
   "note": "Unknown letters are ASCII characters other than ? and those of numbers (-5 may be the value of the option before). Mistakes before any --; words and missing values after legible settings and without ARGV variables in the environment."
  },
  {
   "property": "C109",
   "status": "partial",
   "theorems": [
    "Fstrm.Props.capture_numbers_partial",
    "Fstrm.Props.capture_numbers_not_refused"
   ],
   "note": "False of the code: a word that is no number is read as 0, which means the default (capture_numbers_not_refused, for every such word). Proved: numbers within the range of int are understood as these numbers. Numbers out of this range are undefined behaviour (C92)."
  },
  {
   "property": "C110",
   "status": "partial",
   "theorems": [
    "Fstrm.Props.capture_argv_file_partial",
    "Fstrm.Props.replay_argv_file_partial",
    "Fstrm.Props.capture_argv_file_missing",
    "Fstrm.Props.replay_argv_file_missing",
    "Fstrm.Props.argv_file_long"
   ],
   "note": "False for lines of more than 1023 bytes (argv_file_long). Proved for files with shorter lines, without zero bytes and without the line --, named with = (not standard input), if the result is defined (C92: many options without values in a file overrun memory)."
  },
  {
   "property": "C111",
   "status": "proved",
   "theorems": [
    "Fstrm.Props.pipeline_delivers",
    "Fstrm.Props.pipeline_progress",
    "Fstrm.Props.pipeline_prints",
    "Fstrm.Props.pipeline_single"
   ],
   "note": "The network is that of C72. The server's buffers must hold the START frame. What fstrm_replay sends is what it writes to its connection; its socket calls do not fail."
  },
  {
   "property": "C112",
   "status": "proved",
   "theorems": [
    "Fstrm.Props.ia64_spsc",
    "Fstrm.Props.ia64_needs_acquire"
   ],
   "note": "For compilers that make volatile reads acquire loads, which is the convention on ia64 but not required by the C standard; ia64_needs_acquire shows what happens otherwise. Each run is matched by a run on x86-64 (C33)."
  },
  {
   "property": "C113",
   "status": "partial",
   "theorems": [
    "Fstrm.Props.iothr_start_partial",
    "Fstrm.Props.iothr_start_complete",
    "Fstrm.Props.iothr_start_never_null",
    "Fstrm.Props.iothr_thread_limit"
   ],
   "note": "False of the code: NULL is never returned (iothr_start_never_null); at the limit on threads the program is aborted, or, without assertions, the object has no thread (iothr_thread_limit). Proved: what is returned when everything is granted, and that with assertions an object that is returned is complete."
  },
  {
   "property": "C114",
   "status": "proved",
   "theorems": [
    "Fstrm.Props.control_type_names",
    "Fstrm.Props.control_field_names"
   ],
   "note": ""
  },
  {
   "property": "C115",
   "status": "proved",
   "theorems": [
    "Fstrm.Props.fleet_pipe_held",
    "Fstrm.Props.fleet_pipe_safe",
    "Fstrm.Props.fleet_pipe_progress",
    "Fstrm.Props.iofleet_pipe_safe",
    "Fstrm.Props.iofleet_pipe_progress",
    "Fstrm.Props.pipeline_pipe_progress",
    "Fstrm.Props.qfleet_pipe_safe",
    "Fstrm.Props.qfleet_pipe_progress"
   ],
   "note": "Each program is a function of the bytes it has read and of the bytes the connection takes; clients read byte by byte and only while they wait. Clients, servers and replays are those of C72, C74, C111 and C121. Strangers are not limited."
  },
  {
   "property": "C116",
   "status": "proved",
   "theorems": [
    "Fstrm.Props.iothr_no_sigpipe"
   ],
   "note": "The writer must not be open when it is handed to fstrm_iothr_init (fstrm_writer_init gives such a writer). A signal raised by a system call is for the calling thread, as POSIX has it."
  },
  {
   "property": "C117",
   "status": "partial",
   "theorems": [
    "Fstrm.Props.flush_wait_partial",
    "Fstrm.Props.reopen_elapsed_partial",
    "Fstrm.Props.reopen_early",
    "Fstrm.Props.flush_wait_set_back",
    "Fstrm.Props.reopen_set_back"
   ],
   "note": "False of the code: the reopen interval is computed with whole seconds, so it can be short by almost a second (reopen_early); builds without clock_gettime or pthread_condattr_setclock go by the time of day, and setting it back delays flushing (flush_wait_set_back) and reopening (reopen_set_back) by as much. Proved: the flush timeout in builds with both functions, the reopen interval up to a second in builds with clock_gettime."
  },
  {
   "property": "C118",
   "status": "partial",
   "theorems": [
    "Fstrm.Props.capture_term_partial",
    "Fstrm.Props.capture_term_ends_partial",
    "Fstrm.Props.capture_until_told",
    "Fstrm.Props.capture_waits",
    "Fstrm.Props.capture_term_early",
    "Fstrm.Props.capture_term_late",
    "Fstrm.Props.capture_term_inside"
   ],
   "note": "False of the code: a signal before setup_signals kills the program with its output unfinished (capture_term_early); a second one during the exit makes the handler use the freed event base (capture_term_late); the handler calls event_base_loopexit, which is not async-signal-safe (capture_term_inside). Proved: every run that ends otherwise is a run of the event model ended by term or by itself, and a signal that comes while the loop waits ends the program; without a signal it does not leave its loop (capture_until_told)."
  },
  {
   "property": "C119",
   "status": "proved",
   "theorems": [
    "Fstrm.Props.socket_writer",
    "Fstrm.Props.socket_iothr",
    "Fstrm.Props.socket_queues",
    "Fstrm.Props.socket_replay"
   ],
   "note": "Only connections whose calls do not fail; sends that take a part of the bytes are left out because the code loses bytes then (C31)."
  },
  {
   "property": "C120",
   "status": "proved",
   "theorems": [
    "Fstrm.Props.commands_meet"
   ],
   "note": "The sends of the replay are not cut short (C31). The empty path is left out because the two programs understand it differently (C83). The server's buffers must hold the START frame. Environment variables that change the parsing of arguments are not set."
  },
  {
   "property": "C121",
   "status": "proved",
   "theorems": [
    "Fstrm.Props.qfleet_safe",
    "Fstrm.Props.qfleet_delivers",
    "Fstrm.Props.qfleet_progress",
    "Fstrm.Props.qfleet_bounded",
    "Fstrm.Props.qfleet_files"
   ],
   "note": "Submissions that return before destroy is called must have taken effect by then (the producers have synchronized with the thread that calls destroy), and no submit call may be in progress when destroy returns. The clock has reached the reopen interval when the I/O thread starts (C39). The interleaving of a program's threads is fixed by a schedule that includes the blocking calls."
  },
  {
   "property": "C122",
   "status": "partial",
   "theorems": [
    "Fstrm.Props.mutex_races_partial",
    "Fstrm.Props.lockfree_races_partial",
    "Fstrm.Props.shutting_races",
    "Fstrm.Props.lockfree_races",
    "Fstrm.Props.touch_writes",
    "Fstrm.Props.touch_reads",
    "Fstrm.Props.shutting_noted",
    "Fstrm.Props.own_noted",
    "Fstrm.Props.trace_of_run",
    "Fstrm.Props.run_of_trace"
   ],
   "note": "False of the code: the flag shutting_down is read and written without synchronization (shutting_races), and the lock-free queue synchronizes by barriers only, which C11 does not know (lockfree_races; that it works on the machines it is made for is C33, C79 and C112). Proved: with the queue that has a mutex, nothing but shutting_down races; with the other one, nothing of what the I/O thread keeps for itself and destroy frees, nor the counter of queue handles. A remove call made by destroy is noted as a whole; everything the I/O thread has for itself counts as one place."
  },
  {
   "property": "C123",
   "status": "partial",
   "theorems": [
    "Fstrm.Props.queues_net_partial",
    "Fstrm.Props.queues_net_capacity_partial",
    "Fstrm.Props.queues_compatible_fails"
   ],
   "note": "False of the code when the reader takes a content type of the writer but not the first one (queues_compatible_fails). Proved when it takes the first one. Submissions that return before destroy is called must have taken effect by then, and no submit call may be in progress when destroy returns. The clock has reached the reopen interval when the I/O thread starts (C39)."
  },
  {
   "property": "C124",
   "status": "proved",
   "theorems": [
    "Fstrm.Props.tso_published",
    "Fstrm.Props.ia64_published"
   ],
   "note": "On ia64 with acquire loads for volatile reads, as in C112. For the queue with a mutex, C122 says that the accesses to payloads do not race."
  },
  {
   "property": "C125",
   "status": "proved",
   "theorems": [
    "Fstrm.Props.out_of_memory",
    "Fstrm.Props.out_of_memory_constructors",
    "Fstrm.Props.out_of_memory_iothr",
    "Fstrm.Props.memory_accounted"
   ],
   "note": "Assertions must be compiled in (without NDEBUG). File readers: file_reader_memory (C88) has the same outcome."
  },
  {
   "property": "C126",
   "status": "partial",
   "theorems": [
    "Fstrm.Props.empty_type_partial",
    "Fstrm.Props.empty_type_aborts"
   ],
   "note": "False of the code where malloc(0) returns NULL, as C allows: my_malloc asserts that it does not, so an empty content type aborts the process, also one that a peer sends (empty_type_aborts). Proved for systems where malloc(0) returns a block, as on Linux, macOS and the BSDs."
  },
  {
   "property": "C127",
   "status": "partial",
   "theorems": [
    "Fstrm.Props.dump_in_place_partial",
    "Fstrm.Props.dump_in_place_exact",
    "Fstrm.Props.dump_in_place_loses",
    "Fstrm.Props.dump_in_place_keeps"
   ],
   "note": "False of the code: opening the output truncates the file, and every frame that the C library had not read completely by then is lost with exit status 0 (dump_in_place_loses). Proved: the run is that on another output and an input which ends where had been read to, whatever fails; nothing of the copy is ever read back; and the file has the same frames if all of them had been read ahead."
  },
  {
   "property": "C128",
   "status": "proved",
   "theorems": [
    "Fstrm.Props.no_queue_starves",
    "Fstrm.Props.no_queue_starves_in_memory"
   ],
   "note": "For every run of the I/O thread model, and (second theorem) for every interleaving of memory accesses, with stores delayed, where submissions are ordered by when they become visible: of every other queue at most ahead + 1 later payloads, and at most input_queue_size - 1, are handed to the writer before a given payload."
  },
  {
   "property": "C129",
   "status": "proved",
   "theorems": [
    "Fstrm.Props.dump_of_dump"
   ],
   "note": "From dump_faithful_partial and dump_copies_partial; frames above 1048576 bytes are undefined behaviour in the first run, so that it has no exit status."
  },
  {
   "property": "C130",
   "status": "proved",
   "theorems": [
    "Fstrm.Props.accepted_leaves",
    "Fstrm.Props.full_queue_reopens",
    "Fstrm.Props.waits_only_when_empty",
    "Fstrm.Props.accepted_leaves_in_memory",
    "Fstrm.Props.waits_only_when_empty_in_memory"
   ],
   "note": "The last two are about every interleaving of memory accesses of the queue operations, on every machine, with payloads counted as accepted when their insertion is visible. full_queue_reopens is proved for atomic queue operations. Steps of the I/O thread in which it goes on waiting are not counted; how long a wait lasts is C45, C85 and C117. A payload that has left its queue has been freed or is in the output buffer."
  },
  {
   "property": "C131",
   "status": "partial",
   "theorems": [
    "Fstrm.Props.accepted_freed_partial",
    "Fstrm.Props.accepted_freed_in_memory_partial",
    "Fstrm.Props.accepted_freed_wrong"
   ],
   "note": "The property is false: accepted_freed_wrong is an execution in which the write that makes room for a payload fails, the output cannot be opened again, and the payload, which was put in the output buffer all the same, is neither written nor freed for as long as producers keep the I/O thread busy. accepted_freed_partial is the bound with an additional term for every payload taken from a queue while the output is closed; accepted_freed_in_memory_partial is the same with the queue operations as sequences of memory accesses, on every machine and for both kinds of queue."
  },
  {
   "property": "C132",
   "status": "proved",
   "theorems": [
    "Fstrm.Props.frees_by_io_thread",
    "Fstrm.Props.frees_without_mutex"
   ],
   "note": "frees_by_io_thread is about every state, reachable or not. That destroy's calls come after the I/O thread has ended is part of it; that no lock is held then is by iothr.c:353-355, where remove has returned, and not a theorem."
  },
  {
   "property": "C133",
   "status": "proved",
   "theorems": [
    "Fstrm.Props.reader_memory_bounded",
    "Fstrm.Props.writer_memory_bounded"
   ],
   "note": "Counts the content types kept in the control objects (8 bytes for each besides its own) and the capacity of the frame buffer; the fixed-size parts and the allocator's overhead are not counted. Control objects that are leaked when a reader is reopened after the end of its stream (C86, leak_on_reopen) are not counted, as the property says."
  },
  {
   "property": "C134",
   "status": "proved",
   "theorems": [
    "Fstrm.Props.reader_prompt",
    "Fstrm.Props.reader_prompt_bidirectional"
   ],
   "note": "The transport is any on which reads of no more than what has arrived succeed; about other reads nothing is assumed. Bytes arrive between calls, in any pieces. Frames that a reader refuses (too large, malformed) are the subject of C19 to C23."
  },
  {
   "property": "C135",
   "status": "proved",
   "theorems": [
    "Fstrm.Props.write_hands_over",
    "Fstrm.Props.open_hands_over"
   ],
   "note": "Handed over means that the write callback has reported success for a call that contained the frame. What file and socket transports do with it is C18, C61 and C31; stdio buffers what is written to a file."
  },
  {
   "property": "C136",
   "status": "proved",
   "theorems": [
    "Fstrm.Props.reader_end_is_final"
   ],
   "note": "That the reader was open is expressed by a successful open, or a read that delivered a payload, before. A read that fails because opening failed is different: the next read tries to open again. Closing a bidirectional reader after the end sends FINISH (C65)."
  },
  {
   "property": "C137",
   "status": "partial",
   "theorems": [
    "Fstrm.Props.objects_placed_partial",
    "Fstrm.Props.queue_misplaced"
   ],
   "note": "The property is false of the queue with a mutex: compiled with GCC or clang its structure asks for an alignment of 64, but it is allocated with calloc, which need not return such addresses (queue_misplaced). objects_placed_partial is the property for everything else, and for this queue where the compiler does not define __GNUC__ or the allocator aligns to 64."
  },
  {
   "property": "C138",
   "status": "proved",
   "theorems": [
    "Fstrm.Props.blocks_freed",
    "Fstrm.Props.blocks_freed_in_memory"
   ],
   "note": "The executions are those of C37 and C80; their events are interpreted over blocks of memory. Blocks do not overlap and appear in the model at the submission. Calls of submit still in progress when destroy returns are excluded by the API (C80 says what happens to their payloads)."
  },
  {
   "property": "C139",
   "status": "partial",
   "theorems": [
    "Fstrm.Props.iothr_file_prefix",
    "Fstrm.Props.queues_file_prefix",
    "Fstrm.Props.iothr_file_kept_partial",
    "Fstrm.Props.queues_file_kept_partial",
    "Fstrm.Props.reopen_loses"
   ],
   "note": "The first sentence is proved in full. The second is false: after a failed write the I/O thread closes the file and later opens it again with mode w, which discards everything written so far, without any report; reopen_loses is such an execution. The _partial theorems: the contents stay if no call on the writer fails, and otherwise until the next attempt to open the file."
  },
  {
   "property": "C140",
   "status": "partial",
   "theorems": [
    "Fstrm.Props.iothr_stdout_appends",
    "Fstrm.Props.queues_stdout_appends",
    "Fstrm.Props.iothr_file_safe",
    "Fstrm.Props.queues_file_safe",
    "Fstrm.Props.iothr_stdout_safe_partial",
    "Fstrm.Props.queues_stdout_safe_partial",
    "Fstrm.Props.iothr_stdout_ub"
   ],
   "note": "The first sentence is proved in full, the second for named files. For \"-\" it is false: after a failed write the I/O thread closes standard output and, when reopen_interval has passed, writes to the closed stream (iothr_stdout_ub). The _partial theorems: as long as no call on the writer has failed there is no undefined behaviour."
  }
 ]
}