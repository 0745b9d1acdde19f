{"id": "C01", "title": "Control frame round trip", "statement": "Whenever fstrm_control_encode succeeds on a control object whose type was set through fstrm_control_set_type, feeding exactly the produced bytes to fstrm_control_decode with the same flags succeeds and yields a control object with the same type and the same visible content types (START keeps only the first one, STOP and FINISH none).", "quantifier": "every control object (any number and any bytes of content types), every type, both flag settings, every caller buffer", "why_tests_cant": "Content types are arbitrary byte strings in arbitrary number; tests exercise a dozen literals.", "anchors": ["fstrm/control.c: fstrm_control_encode, fstrm_control_decode, fstrm_control_encoded_size"]}
{"id": "C02", "title": "Decoder accepts exactly the wire grammar", "statement": "fstrm_control_decode succeeds on a byte string if and only if it is a well-formed control frame of the Frame Streams wire format (known type, only content type fields, each at most 256 bytes, total payload at most 512 bytes, at most one content type in START and none in STOP/FINISH), and then the object it fills in is the unique control frame those bytes denote.", "quantifier": "every byte string, both flag settings", "why_tests_cant": "Completeness and soundness range over all byte strings; fuzzing samples them.", "anchors": ["fstrm/control.c: fstrm_control_decode"]}
{"id": "C03", "title": "Encoder is exact and all-or-nothing", "statement": "fstrm_control_encode succeeds exactly when each emitted content type is at most 256 bytes, the whole encoding (header included) is at most 512 bytes and the caller's buffer is large enough; then it writes exactly the wire encoding, reports exactly the length fstrm_control_encoded_size reports, and touches no byte after it. When it fails the buffer and the length are unchanged.", "quantifier": "every control object, flag setting, buffer contents and capacity", "why_tests_cant": "Boundary interaction of 256/512/cap for all combinations of content types.", "anchors": ["fstrm/control.c: fstrm_control_encode, fstrm_control_encoded_size"]}
{"id": "C04", "title": "Control codec memory safety", "statement": "Neither fstrm_control_decode nor fstrm_control_encode ever reads or writes outside the buffer the caller passed, whatever its contents, and decoding always terminates.", "quantifier": "every buffer content and length, every flag word, every previous state of the control object", "why_tests_cant": "An out of bounds access on one input in 2^4096 is invisible to tests.", "anchors": ["fstrm/control.c: fstrm_control_decode, fstrm_control_encode", "fstrm/fstrm-private.h: fs_load_be32, fs_load_bytes, fs_store_be32, fs_store_bytes"]}
{"id": "C05", "title": "Decoding is independent of the object's history", "statement": "The result of fstrm_control_decode and the final state of the control object depend only on the input bytes and flags, not on what the object held before.", "quantifier": "every pair of previous object states, every input", "why_tests_cant": "Ranges over all histories of the object.", "anchors": ["fstrm/control.c: fstrm_control_decode, fstrm_control_reset"]}
{"id": "C06", "title": "Encode and decode agree on the size limit", "statement": "Every control frame that fstrm_control_decode accepts (with header) can be re-encoded (with header) by fstrm_control_encode to the same bytes.", "quantifier": "every accepted byte string", "why_tests_cant": "A mismatch occurs only for frames within 8 bytes of the limit.", "anchors": ["fstrm/control.c: fstrm_control_encoded_size, fstrm_control_decode"]}
{"id": "C07", "title": "Canonical encoding without header", "statement": "Every payload accepted by fstrm_control_decode without header re-encodes without header to exactly the same bytes, so distinct accepted byte strings denote distinct control frames.", "quantifier": "every accepted byte string", "why_tests_cant": "Injectivity over all inputs.", "anchors": ["fstrm/control.c: fstrm_control_encode, fstrm_control_decode"]}
{"id": "C08", "title": "Content type matching rule", "statement": "fstrm_control_match_field_content_type succeeds exactly when the frame is not STOP or FINISH and either it carries no content type, or the requested content type is non-NULL and byte-for-byte equal to one of the frame's content types (for START: to its first one).", "quantifier": "every control object and every content type (or NULL)", "why_tests_cant": "Equality of arbitrary byte strings incl. prefixes, embedded NULs, duplicates.", "anchors": ["fstrm/control.c: fstrm_control_match_field_content_type, fstrm_control_get_num_field_content_type"]}
{"id": "C09", "title": "Accessors expose what was decoded", "statement": "After any history of set_type/add_field/reset/decode calls, the type reported is the last valid one put in, the content types returned by index are exactly those put in since the last reset or decode, in order, and the number reported is as many of them as the frame type allows; indices below that number always succeed. Only between a decode of malformed bytes and the next reset or successful decode is nothing promised.", "quantifier": "every sequence of API calls on a control object", "why_tests_cant": "Arbitrary call histories.", "anchors": ["fstrm/control.c: fstrm_control_get_field_content_type, fstrm_control_add_field_content_type, fstrm_control_reset"]}
{"id": "C10", "title": "Writer produces exactly the specified byte stream", "statement": "A unidirectional writer whose transport calls all succeed emits, from open to close, exactly START(first content type) followed by the length-prefixed frames in submission order followed by STOP, and nothing else.", "quantifier": "every content type list, every sequence of non-empty frames below 2^32 bytes, every grouping into write/writev calls", "why_tests_cant": "All frame sequences and groupings.", "anchors": ["fstrm/writer.c: fstrm_writer_open, fstrm_writer_writev, fstrm_writer_close"]}
{"id": "C11", "title": "Batching is unobservable", "statement": "Writing frames through one writev call, through several, or one by one gives the same bytes on the transport, for batches of any size, without accessing any fixed-size array out of bounds and with at most 256 iovecs per transport call.", "quantifier": "every list of frames and every partition into calls", "why_tests_cant": "The 128-frame chunking boundary for arbitrary batch sizes.", "anchors": ["fstrm/writer.c: fstrm_writer_writev, fstrm__writer_write_iov, fstrm__writer_write_iov_stupid"]}
{"id": "C12", "title": "Empty frames are safe to write", "statement": "A successful fstrm_writer_write of any frame, including an empty one, leaves the stream decodable: a reader of the produced stream gets exactly the frames written.", "quantifier": "every frame sequence including empty frames", "why_tests_cant": "Needs all sequences; an empty frame collides with the escape sequence.", "anchors": ["fstrm/writer.c: fstrm__writer_write_iov"]}
{"id": "C13", "title": "Large frames are framed correctly or refused", "statement": "fstrm_writer_write either fails or emits a length prefix equal to the frame's length, for every frame length.", "quantifier": "every frame length representable in size_t", "why_tests_cant": "Lengths above 4 GiB are impractical to test.", "anchors": ["fstrm/writer.c: fstrm__writer_write_iov"]}
{"id": "C14", "title": "No output outside the open state", "statement": "Data frames are handed to the transport only between a successfully sent START and the STOP of the same connection. After a close, a failed open or a failed write nothing more is emitted until the transport has been opened again and a new START was sent.", "quantifier": "every history of API calls and every transport failure pattern", "why_tests_cant": "All histories and failure points.", "anchors": ["fstrm/writer.c: fstrm_writer_writev, fstrm_writer_close", "fstrm/rdwr.c: fstrm_rdwr_write"]}
{"id": "C15", "title": "Writer content type negotiation", "statement": "In a bidirectional handshake the writer opens the stream iff it has no content types or one of its content types is acceptable according to the peer's ACCEPT frame, and then sends START with such a content type.", "quantifier": "every writer content type list and every ACCEPT frame", "why_tests_cant": "All lists; a bug in the loop only shows for non-first matches.", "anchors": ["fstrm/writer.c: fstrm__writer_open_bidirectional"]}
{"id": "C16", "title": "Negotiated content type is sound", "statement": "Whenever a bidirectional writer open succeeds, the START frame it sent carries either no content type (only if the writer has none) or one of the writer's own content types that the received ACCEPT frame matches.", "quantifier": "every configuration and every byte the peer may send", "why_tests_cant": "Adversarial peer bytes.", "anchors": ["fstrm/writer.c: fstrm__writer_open_bidirectional"]}
{"id": "C17", "title": "Reader returns exactly the frames of a valid stream", "statement": "Reading a well-formed unidirectional stream returns its data frames in order, byte-exact, then fstrm_res_stop, for any interleaved non-STOP control frames.", "quantifier": "every frame sequence with frames of 1..max_frame_size bytes, every content type, every interleaving of control frames", "why_tests_cant": "All streams.", "anchors": ["fstrm/reader.c: fstrm_reader_read, fstrm__reader_next_data"]}
{"id": "C18", "title": "End to end round trip through a file", "statement": "Frames written by a file writer and read back by a file reader configured with a compatible content type come back unchanged, in order, followed by stop, if no frame exceeds the reader's maximum size.", "quantifier": "every frame list, content type configuration", "why_tests_cant": "Composition over all inputs.", "anchors": ["fstrm/writer.c", "fstrm/reader.c", "fstrm/file.c"]}
{"id": "C19", "title": "Truncation at any byte yields a prefix", "statement": "If a stream file is cut at an arbitrary byte (crash), the reader delivers exactly the data frames wholly contained in the remaining bytes, unchanged, and never a partial frame.", "quantifier": "every stream and every crash point", "why_tests_cant": "All crash points of all files.", "anchors": ["fstrm/reader.c: fstrm__reader_next_data", "fstrm/file.c: fstrm__file_op_read"]}
{"id": "C20", "title": "A clean end is distinguishable from truncation", "statement": "fstrm_reader_read returns fstrm_res_stop only if a STOP control frame was received.", "quantifier": "every byte string presented as a stream", "why_tests_cant": "All truncation points.", "anchors": ["fstrm/reader.c: fstrm__reader_next_data", "fstrm/file.c: fstrm__file_op_read"]}
{"id": "C21", "title": "Oversized frames are reported as failure", "statement": "When a data frame longer than max_frame_size arrives, fstrm_reader_read does not return fstrm_res_success.", "quantifier": "every configured maximum and every frame length", "why_tests_cant": "Error-path result value for all lengths.", "anchors": ["fstrm/reader.c: fstrm__reader_next_data"]}
{"id": "C22", "title": "Reader never delivers a frame above the limit", "statement": "Every frame delivered has length between 1 and max_frame_size and is a contiguous slice of the received bytes preceded by its big endian length; the internal buffer always has room for it and never grows beyond max(512, 2*max_frame_size).", "quantifier": "every byte string from the peer", "why_tests_cant": "Adversarial input.", "anchors": ["fstrm/reader.c: fstrm__reader_next_data", "libmy/vector.h: reserve", "libmy/ubuf.h"]}
{"id": "C23", "title": "Hostile input cannot cause undefined behaviour in the reader", "statement": "Whatever bytes the transport delivers, opening, reading and closing a reader never runs into undefined behaviour.", "quantifier": "every byte string, every call history", "why_tests_cant": "Adversarial input; zero length corner case.", "anchors": ["fstrm/reader.c", "fstrm/rdwr.c: fstrm__rdwr_read_control_frame"]}
{"id": "C24", "title": "Reader content type filtering", "statement": "A reader configured with content types opens only streams whose START frame matches one of them; a reader without content types opens any well-formed stream.", "quantifier": "every configuration, every START frame", "why_tests_cant": "All configurations.", "anchors": ["fstrm/reader.c: fstrm__reader_open_unidirectional, fstrm__reader_open_bidirectional"]}
{"id": "C25", "title": "ACCEPT only offers the reader's own types", "statement": "The ACCEPT frame a bidirectional reader sends contains exactly its own content types that the READY frame offers, in its own order; if none is common the handshake is not silently turned into accept-anything.", "quantifier": "every configuration and READY frame", "why_tests_cant": "All configurations; disjoint case.", "anchors": ["fstrm/reader.c: fstrm__reader_open_bidirectional"]}
{"id": "C26", "title": "Unknown control frames are ignored", "statement": "While the stream is open, a control frame of an unknown type does not disturb reading (forward compatibility).", "quantifier": "every control type code", "why_tests_cant": "All 2^32 type codes.", "anchors": ["fstrm/reader.c: fstrm__reader_next_data", "fstrm/control.c: fstrm_control_decode"]}
{"id": "C27", "title": "Bidirectional handshake completes without deadlock", "statement": "A bidirectional writer and reader connected by two reliable byte pipes that deliver bytes in arbitrary pieces, and of which each holds any limited number (at least one) of bytes not read yet, never deadlock: every maximal execution ends with both opened on the agreed content type, all frames delivered, and both closed successfully, whenever their configuration is compatible.", "quantifier": "every compatible configuration, frame list, capacity of the pipes, and delivery schedule (segmentation and interleaving)", "why_tests_cant": "All schedules.", "anchors": ["fstrm/writer.c: fstrm__writer_open_bidirectional, fstrm_writer_close", "fstrm/reader.c: fstrm__reader_open_bidirectional, fstrm_reader_close"]}
{"id": "C28", "title": "Transport call discipline", "statement": "For every history of API calls on one reader or writer, the transport's read/write callbacks are only invoked while it is open, its close callback is invoked at most once per successful open, and a failing read or write is followed by close before any other callback.", "quantifier": "every history of rdwr calls and every callback result", "why_tests_cant": "All histories and failure patterns.", "anchors": ["fstrm/rdwr.c: fstrm_rdwr_open, fstrm_rdwr_close, fstrm_rdwr_read, fstrm_rdwr_write"]}
{"id": "C29", "title": "Destroying releases the transport", "statement": "After fstrm_writer_destroy / fstrm_reader_destroy the transport is not left open.", "quantifier": "every history preceding destroy", "why_tests_cant": "Error paths of the handshake.", "anchors": ["fstrm/writer.c: fstrm_writer_destroy", "fstrm/reader.c: fstrm_reader_destroy"]}
{"id": "C30", "title": "Socket reads reassemble exactly", "statement": "Reading n bytes from a socket returns exactly the next n bytes of the stream however the kernel splits them and however often it is interrupted, or fails.", "quantifier": "every splitting of the byte stream, every interruption pattern", "why_tests_cant": "All splittings.", "anchors": ["libmy/read_bytes.h: read_bytes"]}
{"id": "C31", "title": "Socket writes survive short sends", "statement": "If a socket write returns success, the bytes sent are exactly the concatenation of the given buffers, however the kernel splits the sends.", "quantifier": "every list of buffers and every sequence of short sends/EINTR", "why_tests_cant": "Short sends depend on kernel timing.", "anchors": ["fstrm/unix_writer.c: fstrm__unix_writer_op_write", "fstrm/tcp_writer.c: fstrm__tcp_writer_op_write"]}
{"id": "C32", "title": "Ring queue is a bounded FIFO", "statement": "A queue of size 2^k behaves, for every sequence of insert and remove calls, as a FIFO with capacity 2^k-1, reporting exact space and count.", "quantifier": "every queue size 2^k up to 2^31, every element size for which the array is at most 4 GiB (offsets are 32-bit), and every operation sequence", "why_tests_cant": "Index wraparound in 32-bit arithmetic for all sizes/sequences.", "anchors": ["libmy/my_queue_mb.c", "libmy/my_queue_mutex.c"]}
{"id": "C33", "title": "Lock-free queue is correct under x86 reordering", "statement": "With one producer and one consumer thread, for every interleaving and every store-buffer delay permitted by x86-TSO, the consumer receives a prefix of what the producer inserted, in order, uncorrupted; failed removes only happen when every element whose insertion is visible has been removed; a slot is never overwritten before it was read.", "quantifier": "every interleaving of the two threads' individual memory accesses, every operation sequence, every store buffer schedule", "why_tests_cant": "Schedules and memory reorderings.", "anchors": ["libmy/my_queue_mb.c: my_queue_mb_insert, my_queue_mb_remove", "libmy/my_memory_barrier.h"]}
{"id": "C34", "title": "Mutex queue supports many producers", "statement": "With any number of producer threads the mutex-protected queue loses, duplicates and reorders nothing per producer; the lock-free one gives no such guarantee.", "quantifier": "every interleaving of any number of threads", "why_tests_cant": "Schedules.", "anchors": ["libmy/my_queue_mutex.c", "libmy/my_queue_mb.c"]}
{"id": "C35", "title": "Option validation is exact", "statement": "Each iothr/reader/writer option setter accepts exactly the documented range and leaves the previous value unchanged when it rejects.", "quantifier": "every unsigned value and previous option state", "why_tests_cant": "All values.", "anchors": ["fstrm/iothr.c: fstrm_iothr_options_set_*", "fstrm/reader.c: fstrm_reader_options_*", "fstrm/writer.c: fstrm_writer_options_add_content_type"]}
{"id": "C36", "title": "Accepted options never crash initialization", "statement": "For every option combination accepted by the setters, fstrm_iothr_init either returns an object or NULL, never undefined behaviour.", "quantifier": "every option combination", "why_tests_cant": "Non power of two sizes on the error path.", "anchors": ["fstrm/iothr.c: fstrm_iothr_init, fstrm_iothr_destroy, fstrm__iothr_free_queues"]}
{"id": "C37", "title": "Every submitted payload is freed exactly once", "statement": "For every execution ending with fstrm_iothr_destroy, the free function is called exactly once for each payload whose submit succeeded, never for a payload whose submit failed, and never before the payload has been handed to the writer or discarded.", "quantifier": "every schedule of producers, I/O thread and destroy, every transport failure pattern", "why_tests_cant": "All schedules and failure points.", "anchors": ["fstrm/iothr.c: fstrm_iothr_submit, fstrm__iothr_flush_output, fstrm__iothr_process_queue_entry, fstrm__iothr_free_queues"]}
{"id": "C38", "title": "Output preserves per-queue order, without duplicates or inventions", "statement": "The sequence of frames handed to the writer, restricted to one input queue, is a subsequence of the frames successfully submitted to that queue.", "quantifier": "every schedule and failure pattern", "why_tests_cant": "All schedules.", "anchors": ["fstrm/iothr.c"]}
{"id": "C39", "title": "No loss without transport failure", "statement": "If opening succeeds before the first frame is taken from a queue and no transport call fails, all frames whose submission completed before destroy was called are written before STOP, in per-queue order.", "quantifier": "every schedule of producers and I/O thread", "why_tests_cant": "All schedules.", "anchors": ["fstrm/iothr.c"]}
{"id": "C40", "title": "Output buffering stays within its limits", "statement": "The I/O thread never holds more than output_queue_size frames and never exceeds buffer_hint bytes with more than one frame pending; the internal assertion and arrays are never violated.", "quantifier": "every execution", "why_tests_cant": "All executions.", "anchors": ["fstrm/iothr.c: fstrm__iothr_maybe_flush_output, fstrm__iothr_process_queue_entry"]}
{"id": "C41", "title": "Reopen attempts are rate limited", "statement": "Two attempts to open the output are at least reopen_interval seconds apart, and no attempt is made while opened.", "quantifier": "every clock sequence and failure pattern", "why_tests_cant": "Time.", "anchors": ["fstrm/iothr.c: fstrm__iothr_maybe_open"]}
{"id": "C42", "title": "The first open attempt is immediate", "statement": "The I/O thread tries to open its output when it starts.", "quantifier": "every monotonic clock value at start", "why_tests_cant": "Depends on uptime.", "anchors": ["fstrm/iothr.c: fstrm__iothr_maybe_open"]}
{"id": "C43", "title": "Input queue handles are unique", "statement": "Concurrent fstrm_iothr_get_input_queue calls return pairwise distinct queues, the first num_input_queues calls succeed and all later ones return NULL.", "quantifier": "every interleaving of callers", "why_tests_cant": "Schedules.", "anchors": ["fstrm/iothr.c: fstrm_iothr_get_input_queue"]}
{"id": "C44", "title": "Shutdown drains and terminates", "statement": "After destroy is called and producers stop, the I/O thread exits after finitely many steps, having emptied all queues and its output buffer.", "quantifier": "every state in which destroy is called, every fair continuation", "why_tests_cant": "All states.", "anchors": ["fstrm/iothr.c: fstrm__iothr_thr, fstrm_iothr_destroy"]}
{"id": "C45", "title": "Buffered data is flushed within flush_timeout", "statement": "Data accepted by the I/O thread is handed to the writer at the latest flush_timeout seconds after it was buffered.", "quantifier": "every schedule with clock", "why_tests_cant": "Timing schedules.", "anchors": ["fstrm/iothr.c: fstrm__iothr_thr, fstrm_iothr_submit"]}
{"id": "C46", "title": "Capture output is always well formed", "statement": "Whatever bytes any number of clients send in any interleaving, each finished output file of fstrm_capture is a well-formed stream: START with the configured content type, complete data frames, STOP.", "quantifier": "every client byte stream, every interleaving of clients, every segmentation, every rotation point", "why_tests_cant": "Adversarial input and schedules.", "anchors": ["src/fstrm_capture.c: process_data_frame, open_write_file, close_write_file, rotate_output"]}
{"id": "C47", "title": "Capture is insensitive to segmentation", "statement": "The frames taken from a client connection depend only on the bytes it sent, not on how the network split them, for frames that fit the buffer.", "quantifier": "every byte stream and every two segmentations", "why_tests_cant": "All segmentations.", "anchors": ["src/fstrm_capture.c: cb_read, can_read_full_frame"]}
{"id": "C48", "title": "Capture only records negotiated data", "statement": "Data frames are recorded only between an accepted START and the STOP of a connection that completed the handshake.", "quantifier": "every client behaviour", "why_tests_cant": "Protocol violations in any state.", "anchors": ["src/fstrm_capture.c: cb_read, process_data_frame, process_control_frame"]}
{"id": "C49", "title": "Capture accepts every handshake the library can produce", "statement": "Every READY frame the library's writer can encode is accepted by fstrm_capture if it offers the configured content type.", "quantifier": "every READY frame", "why_tests_cant": "Boundary of 512 bytes.", "anchors": ["src/fstrm_capture.c: load_control_frame, process_control_frame_ready"]}
{"id": "C50", "title": "Oversized frames are skipped without losing synchronisation", "statement": "A data frame too large for the buffer is dropped entirely and the following frames are captured intact; the connection does not stall.", "quantifier": "every oversize frame, segmentation", "why_tests_cant": "All sizes/segmentations.", "anchors": ["src/fstrm_capture.c: can_read_full_frame, cb_read"]}
{"id": "C51", "title": "Hostile lengths cannot hang or corrupt capture", "statement": "No frame length announced by a client makes fstrm_capture loop forever, invoke undefined behaviour or write unframed bytes.", "quantifier": "every 32-bit length", "why_tests_cant": "The wrap only occurs for four of 2^32 lengths.", "anchors": ["src/fstrm_capture.c: can_read_full_frame, process_data_frame"]}
{"id": "C52", "title": "Connection limit", "statement": "With a connection limit N at most N clients are served at a time, the listener accepts exactly when fewer than N are active, and without a limit it always accepts.", "quantifier": "every history of connects and disconnects", "why_tests_cant": "All histories.", "anchors": ["src/fstrm_capture.c: cb_accept_conn, cb_close_conn"]}
{"id": "C53", "title": "Rotation loses nothing", "statement": "Splitting or rotating the output never drops, duplicates or splits a frame: the frames of all output files in order are the frames captured.", "quantifier": "every rotation schedule and frame sequence", "why_tests_cant": "Rotation points.", "anchors": ["src/fstrm_capture.c: rotate_output, maybe_rotate_output, process_data_frame"]}
{"id": "C54", "title": "fstrm_dump copies faithfully", "statement": "When fstrm_dump copies a stream file to another file the copy carries the same content type and exactly the same frames.", "quantifier": "every valid stream file", "why_tests_cant": "All files.", "anchors": ["src/fstrm_dump.c: main, process_start_frame"]}
{"id": "C55", "title": "fstrm_dump reports truncated input", "statement": "fstrm_dump exits with failure if its input did not end with a STOP frame.", "quantifier": "every input file", "why_tests_cant": "All truncations.", "anchors": ["src/fstrm_dump.c: main, print_stop_frame"]}
{"id": "C56", "title": "fstrm_replay sends all frames of all files in order", "statement": "fstrm_replay given files of the configured content type sends the frames of all of them in order within one stream.", "quantifier": "every list of stream files", "why_tests_cant": "All lists.", "anchors": ["src/fstrm_replay.c: main, process_file"]}
{"id": "C57", "title": "Printed strings are printable and unambiguous", "statement": "print_string only emits printable characters, and different byte strings print differently.", "quantifier": "every byte string", "why_tests_cant": "All byte strings.", "anchors": ["libmy/print_string.h"]}
{"id": "C58", "title": "Growable arrays preserve their contents", "statement": "For every sequence of add/reserve/append/extend/fill/clip/reset/detach/reinit operations a vector's visible contents are those of the mathematical list, size never exceeds capacity and no access is out of bounds; detaching hands out exactly the contents.", "quantifier": "every operation sequence and initial size", "why_tests_cant": "All histories.", "anchors": ["libmy/vector.h", "libmy/ubuf.h"]}
{"id": "C59", "title": "Socket address validation", "statement": "A TCP writer is created only for a port string denoting a number below 65536; a unix writer only if the path with its terminator fits the socket address.", "quantifier": "every string", "why_tests_cant": "All strings.", "anchors": ["fstrm/tcp_writer.c: fstrm__tcp_writer_fill_port", "fstrm/unix_writer.c: fstrm_unix_writer_init"]}
{"id": "C60", "title": "Writer memory safety", "statement": "No sequence of calls on a writer, ended by destroying it, invokes undefined behaviour, whatever the transport's callbacks return and whatever bytes the peer sends.", "quantifier": "every call history, every callback outcome, every peer", "why_tests_cant": "All histories and failure points.", "anchors": ["fstrm/writer.c", "fstrm/rdwr.c"]}
{"id": "C61", "title": "A file is always a prefix of one stream", "statement": "At every moment, including after a crash or after arbitrary I/O errors in the middle of a call, the file behind a file writer is either untouched or holds a prefix of one well-formed stream whose data frames are consecutive among those submitted; a reader therefore gets back only submitted frames, unchanged and in order.", "quantifier": "all call histories, all scripts of stdio outcomes (failures and partial flushes), all crash points", "why_tests_cant": "Crash points and partial writes cannot be enumerated by tests.", "anchors": ["fstrm/file.c:fstrm__file_op_write", "fstrm/file.c:fstrm__file_op_close", "fstrm/writer.c:fstrm_writer_writev"]}
{"id": "C62", "title": "File readers and writers are memory safe", "statement": "No sequence of calls on a file reader or writer, for any file contents and any I/O errors, runs into undefined behaviour; this includes closing and reopening.", "quantifier": "all call histories, file contents, stdio outcomes", "why_tests_cant": "Needs every history and every input; sanitizers see only the executed ones.", "anchors": ["fstrm/file.c:fstrm__file_op_open", "fstrm/file.c:fstrm__file_op_close", "fstrm/file.c:fstrm__file_op_read", "fstrm/file.c:fstrm__file_op_write"]}
{"id": "C63", "title": "Socket writers are memory safe", "statement": "No sequence of calls on a unix or tcp writer, including reconnections, runs into undefined behaviour, whatever the kernel returns and whatever the peers send.", "quantifier": "all call histories, kernel outcomes (short sends, interruptions, errors), peers", "why_tests_cant": "Needs every history and every kernel schedule.", "anchors": ["fstrm/unix_writer.c:fstrm__unix_writer_op_write", "fstrm/tcp_writer.c:fstrm__tcp_writer_op_write"]}
{"id": "C64", "title": "From producers through the I/O thread to a file and back", "statement": "If an I/O thread writes to a file, the clock has reached reopen_interval when the thread starts, no call fails and no payload exceeds the reader's maximum size, then after fstrm_iothr_destroy has returned a reader of that file delivers, per input queue and in order, every payload submitted before destroy was called, nothing that was not submitted and nothing twice, followed by the end of the stream.", "quantifier": "all numbers of producers and queues, all interleavings, all options, payloads and content types", "why_tests_cant": "All schedules end to end.", "anchors": ["fstrm/iothr.c", "fstrm/writer.c", "fstrm/file.c", "fstrm/reader.c"]}
{"id": "C65", "title": "Streams end with the STOP/FINISH handshake", "statement": "Closing a bidirectional reader sends exactly one FINISH frame (or reports the failed write) and a unidirectional one sends nothing; closing a writer succeeds only if exactly one STOP frame was written and, if the transport can be read, one complete FINISH frame was received. Closing one that is not open reports failure and does nothing.", "quantifier": "all readers and writers in any state reached, all transports and peers", "why_tests_cant": "All peer behaviours.", "anchors": ["fstrm/reader.c:fstrm_reader_close", "fstrm/writer.c:fstrm_writer_close"]}
{"id": "C66", "title": "fstrm_capture answers as the protocol says", "statement": "When bytes arrive from a client, fstrm_capture closes the connection exactly if a control frame was wrong for the state of the handshake, its content type or its format, and otherwise it has sent or queued exactly the replies called for: ACCEPT with the configured content type for a fitting READY, FINISH for STOP.", "quantifier": "every client byte stream, every segmentation, every interleaving with other clients, signals and rotations", "why_tests_cant": "All client behaviours and schedules.", "anchors": ["src/fstrm_capture.c:process_control_frame", "src/fstrm_capture.c:cb_read", "src/fstrm_capture.c:send_frame"]}
{"id": "C67", "title": "A file reader delivers exactly the leading frames", "statement": "Reading a file to its end delivers exactly the data frames of the longest leading part of the file that is made of complete frames, in order and unchanged, and nothing else, whatever the file contains and wherever reading fails; a complete stream ends with 'stop'.", "quantifier": "every file content, every outcome of the stdio calls", "why_tests_cant": "Arbitrary contents and error points.", "anchors": ["fstrm/file.c:fstrm__file_op_read", "fstrm/reader.c:fstrm_reader_read"]}
{"id": "C68", "title": "fstrm_dump prints one printable line per frame", "statement": "Without an output file, or with an output other than \"-\", fstrm_dump prints, for every data frame it reads in order, exactly one line, made only of printable characters, whatever bytes the frame holds. (If printing fails, what appears is still printable; frames above the maximum size are the subject of C54, failing to print that of C103.)", "quantifier": "every input file and every frame", "why_tests_cant": "All byte strings.", "anchors": ["src/fstrm_dump.c: main", "libmy/print_string.h"]}
{"id": "C69", "title": "fstrm_replay's exit status tells whether everything was delivered", "statement": "fstrm_replay exits with status 0 only if all frames of all files were sent and the peer confirmed the end of the stream.", "quantifier": "every list of files, every peer and I/O outcome", "why_tests_cant": "All failure points.", "anchors": ["src/fstrm_replay.c: main, process_file"]}
{"id": "C70", "title": "Each connection carries one handshake and one stream", "statement": "On every connection a bidirectional writer uses, the bytes sent are a beginning of READY followed by one stream, with frames that are consecutive among those written; no frame is on two connections; and if every call succeeds each open-to-close session has exactly one connection, carrying exactly READY and the session's complete stream.", "quantifier": "all call histories with any number of reconnections, all failures of connecting, sending, receiving and closing, all peers", "why_tests_cant": "All failure points and reconnection histories.", "anchors": ["fstrm/writer.c", "fstrm/rdwr.c", "fstrm/unix_writer.c:fstrm__unix_writer_op_open", "fstrm/tcp_writer.c:fstrm__tcp_writer_op_open"]}
{"id": "C71", "title": "\"-\" stands for the standard streams", "statement": "A writer whose path is '-' appends to standard output: what was there before stays, followed by a prefix of one well-formed stream of frames consecutive among those submitted, and by exactly the stream of the accepted frames once close has reported success. Opening '-' opens and empties no file.", "quantifier": "all call histories, all scripts of stdio outcomes, all earlier contents", "why_tests_cant": "All failure points and histories.", "anchors": ["fstrm/file.c:fstrm__file_op_open", "fstrm/file.c:fstrm__file_op_write", "fstrm/file.c:fstrm__file_op_close"]}
{"id": "C72", "title": "Clients of fstrm_capture get all their frames into its output", "statement": "Any number of programs, each opening a bidirectional library writer with no content types or with the server's content type first, submitting batches of non-empty frames that fit the server's buffer and closing it, are connected to one fstrm_capture, besides any number of other clients that send anything except announcements of nearly 2^32 bytes. However the bytes are split and interleaved, whichever connections break and whatever else happens to the server: the server never misbehaves; every call of a client whose connection does not break succeeds or waits; what was written for a client is a beginning of its frames in order; while the server runs the network can always do something for an accepted client whose connection does not break until it has finished; when a client's close has returned, all its frames have been written, and they are in the output files in order if no file was overwritten and no write failed.", "quantifier": "all numbers of clients, client programs, content types, segmentations, interleavings, signals, rotations and failures of the output", "why_tests_cant": "All schedules of two programs end to end.", "anchors": ["fstrm/writer.c", "fstrm/rdwr.c", "fstrm/control.c", "src/fstrm_capture.c"]}
{"id": "C73", "title": "What the I/O thread's connections carry", "statement": "An I/O thread over a bidirectional writer, with any producers, failures, reconnections and peers: every connection carries a beginning of READY (repeated only if the handshake was repeated) followed by one stream of submitted payloads; over all connections together no payload is carried twice, and those of one input queue are in submission order. If no call fails there is exactly one connection, carrying READY and a complete stream with every payload submitted before destroy was called.", "quantifier": "all schedules of producers, I/O thread and destroy, all options, all failures of the transport, all peers", "why_tests_cant": "All schedules and failure points.", "anchors": ["fstrm/iothr.c", "fstrm/writer.c", "fstrm/rdwr.c", "fstrm/unix_writer.c", "fstrm/tcp_writer.c"]}
{"id": "C74", "title": "From producers through I/O threads into fstrm_capture's output", "statement": "Any number of programs, each with any number of producer threads and an I/O thread over a bidirectional library writer (no content types or the server's first), are connected to one fstrm_capture. Other clients may send anything except announcements of nearly 2^32 bytes. However threads are scheduled and bytes are split and interleaved, whichever connections break and whatever else happens to the server: the server never misbehaves; every call of the I/O thread's writer over a connection that does not break succeeds or waits; when fstrm_iothr_destroy has returned in a program, all payloads submitted before it was called have been written by the server, per input queue in submission order, none twice, and they are in the output files if no file was overwritten and no write failed; while the server runs the network can always do something for an accepted program whose connection does not break until it has finished.", "quantifier": "all numbers of programs, producers and queues, all schedules, options, payloads, content types, segmentations, signals, rotations and output failures", "why_tests_cant": "All schedules of all threads of two kinds of programs end to end.", "anchors": ["fstrm/iothr.c", "fstrm/writer.c", "fstrm/rdwr.c", "fstrm/control.c", "src/fstrm_capture.c"]}
{"id": "C75", "title": "From producers through an I/O thread to a reader", "statement": "A program with producers and an I/O thread over a bidirectional writer and a program reading from a bidirectional reader never deadlock, and when nothing is left to deliver the reader has delivered every payload submitted before fstrm_iothr_destroy was called, per input queue in submission order, nothing twice and nothing that was not submitted, followed by the end of the stream.", "quantifier": "all schedules of producers and I/O thread, all options, payloads, compatible content types, all ways of cutting up the bytes", "why_tests_cant": "All schedules end to end.", "anchors": ["fstrm/iothr.c", "fstrm/writer.c", "fstrm/reader.c", "fstrm/rdwr.c"]}
{"id": "C76", "title": "Control frames can be queried", "statement": "While a stream is open, asking a writer or reader for a control frame reports what was really exchanged in the handshake of this stream: the READY and START frames sent and the ACCEPT frame received by a writer, the READY and START frames received and the ACCEPT frame sent by a reader, and after the end of the stream the FINISH or STOP frame received. Success means that a frame of the type asked for was returned; other types of frame are refused.", "quantifier": "all call histories with any number of reopenings, all transports and peers, all types asked for", "why_tests_cant": "All histories and peers.", "anchors": ["fstrm/writer.c:fstrm_writer_get_control", "fstrm/reader.c:fstrm_reader_get_control"]}
{"id": "C77", "title": "Output files are rotated exactly when due", "statement": "fstrm_capture begins a new output file exactly with each SIGUSR1 (never when writing to standard output) and, with --split N, exactly after a data frame at which at least N seconds have passed since the present file was opened; it never rotates otherwise. Each file is opened under the configured name, with --localtime or --gmtime under the name made for the time of its opening, which is also the time the next split is counted from. It exits with success only after a termination signal, having closed the present file.", "quantifier": "all arguments, clocks (also running backwards), clients, schedules, signals and results of system calls", "why_tests_cant": "Depends on all combinations of clock readings, frames and signals.", "anchors": ["src/fstrm_capture.c: maybe_rotate_output, rotate_output, update_output_fname, open_write_file, close_write_file, do_sigusr1"]}
{"id": "C78", "title": "Nothing is recorded twice when a producer reconnects", "statement": "An I/O thread whose connection to fstrm_capture breaks and is made again, any number of times, with writes that fail and may have been transmitted in part: everything the server records of its connections are payloads that were submitted, unchanged, on all connections together per input queue in submission order, and none is recorded twice, on whichever connections and whatever else the server and other clients do.", "quantifier": "all schedules, transports, failures and reconnections of the producer, all ways in which bytes arrive or are lost at the end of a connection, all events and other clients of the server (none announcing a frame of 2^32 bytes or more)", "why_tests_cant": "All interleavings, break points and reconnections.", "anchors": ["fstrm/iothr.c", "fstrm/writer.c", "fstrm/rdwr.c", "src/fstrm_capture.c"]}
{"id": "C79", "title": "The I/O thread works with the real input queues", "statement": "With the ring buffers that fstrm_iothr_init chooses for the options (lock-free for single producers, with a mutex otherwise), operated on one memory access at a time by submitting threads and the I/O thread, stores being delayed arbitrarily: no execution runs into undefined behaviour, what the I/O thread takes from a queue is, byte for byte, the oldest entry that submit put there, and with the queue model for multiple producers every thread, with the one for single producers the producer, can submit at any time.", "quantifier": "all options made by the setters with a power of two as queue size, all numbers of threads, all interleavings of memory accesses, all delays of stores that x86-64 and ia64 allow, all well-behaved transports", "why_tests_cant": "All interleavings at the level of memory accesses of two components together.", "anchors": ["fstrm/iothr.c: fstrm_iothr_init, fstrm_iothr_submit, fstrm__iothr_process_queues, fstrm_iothr_destroy", "libmy/my_queue_mb.c", "libmy/my_queue_mutex.c"]}
{"id": "C80", "title": "Ownership, order and delivery hold down to memory accesses", "statement": "With the real queues and all interleavings of memory accesses: payloads are freed at most once and never handed on afterwards; after destroy exactly the payloads for which submit returned success have been freed, once each (given a free function), and none that was refused; what one thread submits to one queue reaches the writer in order, nothing twice; if no writer call fails and producers have finished when destroy is called, every payload for which submit had returned success is in the one stream on the transport. Limits, reopening rate and queue handles are as stated for atomic queues.", "quantifier": "all options made by the setters with a power of two as queue size, all numbers of threads, all interleavings of memory accesses, all delays of stores that x86-64 and ia64 allow, all transports", "why_tests_cant": "All interleavings at the level of memory accesses of two components together.", "anchors": ["fstrm/iothr.c", "libmy/my_queue_mb.c", "libmy/my_queue_mutex.c"]}
{"id": "C81", "title": "A capture that does not start leaves everything as it was", "statement": "fstrm_capture starts only if its options make sense together; then it listens at exactly the address they name (the unix path if given, else the internet address and port), removes nothing but a socket left over at that path, and writes the START frame with the given content type to the place given. If it does not start, it has removed and opened nothing.", "quantifier": "all option values, all behaviours of the operating system during the start", "why_tests_cant": "The combinations of options and failing system calls are too many to try, and the last part fails only with particular failures.", "anchors": ["src/fstrm_capture.c:parse_args", "src/fstrm_capture.c:open_read_unix", "src/fstrm_capture.c:open_read_tcp", "src/fstrm_capture.c:setup_event_loop", "src/fstrm_capture.c:main"]}
{"id": "C82", "title": "The I/O thread measures time by monotonic clocks", "statement": "An I/O thread measures the reopen interval with the first monotonic clock that can be read, and the flush timeout with the first one that can be read and waited for; the deadline of a wait is computed with the clock that the wait goes by; no assertion about clocks fails; if there is no such clock, fstrm_iothr_init returns NULL.", "quantifier": "all platforms: which clocks exist, can be read and can be waited for; all options", "why_tests_cant": "A test sees the clocks of one platform.", "anchors": ["fstrm/time.c", "fstrm/iothr.c:fstrm_iothr_init"]}
{"id": "C83", "title": "fstrm_replay connects to the address it is given", "statement": "fstrm_replay connects to exactly the address its options name, or to none (exit status 1) if the options are unusable; an fstrm_replay and an fstrm_capture that are given the same content type and address options meet at the same address.", "quantifier": "all option values", "why_tests_cant": "All strings that can be given as path, address and port; agreement of two independent parsers.", "anchors": ["src/fstrm_replay.c:parse_args", "src/fstrm_replay.c:init_writer", "src/fstrm_capture.c:open_read_unix", "src/fstrm_capture.c:open_read_tcp", "fstrm/unix_writer.c:fstrm_unix_writer_init", "fstrm/tcp_writer.c:fstrm_tcp_writer_init"]}
{"id": "C84", "title": "destroy returns, down to memory accesses", "statement": "Once fstrm_iothr_destroy has been called, under every fair schedule of memory accesses the I/O thread exits after finitely many steps with nothing submitted earlier left in a queue, submit calls in progress come to their end, and destroy returns; then exactly the payloads for which submit returned success have been freed, once each (given a free function). Threads may be in the middle of submit calls, wait for a mutex or have stores under way when destroy is called.", "quantifier": "all options made by the setters with a power of two as queue size, all executions before the call of destroy, all fair infinite schedules of accesses, stores, timeouts and further calls, all well-behaved transports", "why_tests_cant": "Termination under all fair schedules; a test that hangs once in a long time is no proof of the contrary.", "anchors": ["fstrm/iothr.c: fstrm_iothr_destroy, fstrm__iothr_thr, fstrm__iothr_process_queues", "libmy/my_queue_mb.c", "libmy/my_queue_mutex.c"]}
{"id": "C85", "title": "Submitting wakes the I/O thread at queue_notify_threshold", "statement": "While the I/O thread waits, the submission that brings the number of outstanding entries of an input queue up to queue_notify_threshold wakes it, so that it begins to drain the queues; other submissions do not.", "quantifier": "all options made by the setters, all histories of calls by any number of threads while the I/O thread waits", "why_tests_cant": "All histories of submissions by several threads to several queues.", "anchors": ["fstrm/iothr.h: fstrm_iothr_options_set_queue_notify_threshold", "fstrm/iothr.c: fstrm_iothr_submit, fstrm__iothr_thr"]}
{"id": "C86", "title": "No leak, no double free, no use after free", "statement": "Whatever a client does with control objects, options, transports, writers and readers, in whatever order and with whatever outcome of the transport's callbacks, the library never touches or frees memory that is not allocated, and once the client has destroyed every object it made, everything the library allocated has been freed.", "quantifier": "all sequences of calls on any number of objects, all transports", "why_tests_cant": "All histories, in particular all error paths and all reopenings; a leak does not change any result.", "anchors": ["fstrm/control.c", "fstrm/rdwr.c", "fstrm/writer.c", "fstrm/reader.c", "libmy/vector.h", "libmy/my_alloc.h"]}
{"id": "C87", "title": "How long returned pointers stay valid", "statement": "A control object returned by fstrm_writer_get_control or fstrm_reader_get_control exists until the writer or reader is destroyed, the data returned by fstrm_reader_read until the next read on that reader or its destruction, and a content type returned by fstrm_control_get_field_content_type, with the same bytes, until the control object is reset, decoded into or destroyed, whatever else the client does in between, including closing and reopening.", "quantifier": "all sequences of calls on any number of objects before and after the pointer is obtained, all transports", "why_tests_cant": "All histories between obtaining and using a pointer; a dangling pointer often still shows the old bytes.", "anchors": ["fstrm/writer.c: fstrm_writer_get_control", "fstrm/reader.c: fstrm_reader_get_control, fstrm_reader_read", "fstrm/control.c: fstrm_control_get_field_content_type, fstrm_control_reset"]}
{"id": "C88", "title": "Transports, their options and the I/O thread give back their memory", "statement": "File, unix socket and TCP socket options can be set any number of times; the reader or writer made from them uses the values set last and does not need them any more, so they can be destroyed. A constructor that returns NULL leaves nothing allocated. Once a writer (or a reader that was not reopened after its stream ended, see C86) made in this way is destroyed, or fstrm_iothr_destroy of the I/O thread that took the writer over has returned, everything allocated since has been freed, and no memory that is not allocated was touched or freed.", "quantifier": "all sequences of setter calls with any strings including NULL, all outcomes of the operating system, all sequences of calls; for the I/O thread all options and all executions", "why_tests_cant": "All histories and error paths; a leak does not change any result.", "anchors": ["fstrm/file.c", "fstrm/unix_writer.c", "fstrm/tcp_writer.c", "fstrm/iothr.c: fstrm_iothr_init, fstrm_iothr_destroy"]}
{"id": "C89", "title": "Command lines mean what the manual pages say", "statement": "fstrm_capture and fstrm_replay understand every option by its letter, by its name and by any unambiguous abbreviation of the name, with the value joined by = or as the next argument, in any order. The last value given counts, each -r adds a file, in order; numbers are decimal. fstrm_replay exits with status 1 and connects to nothing if a content type, a file or an address is missing or both kinds of address are given.", "quantifier": "all lists of options in all spellings, all values (numbers within the range of int), no ARGV_ environment variables", "why_tests_cant": "All lists of options, spellings and values.", "anchors": ["libmy/argv.c: argv_process, do_list, do_arg, string_to_value", "src/fstrm_capture.c: parse_args", "src/fstrm_replay.c: parse_args"]}
{"id": "C90", "title": "fstrm_replay does not start without its required options", "statement": "Whatever its arguments, environment variables and argument files are, fstrm_replay goes on only if it has been given a content type, exactly one of a unix socket path and an internet address, and at least one file, each with a value; so it never uses an option that was not given.", "quantifier": "all argument vectors, all values of GLOBAL_ARGV and ARGV_ environment variables, all argument files", "why_tests_cant": "All byte strings as arguments, including strange uses of the parser's own options, toggles and files.", "anchors": ["libmy/argv.c: argv_process, check_mand, check_xor, check_or", "src/fstrm_replay.c: parse_args, init_writer"]}
{"id": "C91", "title": "Arguments from the environment come first", "statement": "The words in the environment variable ARGV_ followed by the program's name in upper case count exactly as if they had been given on the command line before its arguments. The variable GLOBAL_ARGV can change this: with env=after they count as if given behind its arguments, with env=none not at all.", "quantifier": "all values of the variable without the word --, all arguments, GLOBAL_ARGV unset", "why_tests_cant": "All pairs of environment values and command lines.", "anchors": ["libmy/argv.c: do_env_args, vectorize, argv_process_no_env"]}
{"id": "C92", "title": "Reading a command line does not corrupt memory", "statement": "Whatever arguments they are started with, fstrm_capture and fstrm_replay read their command line without undefined behaviour: they accept it or exit.", "quantifier": "all argument vectors", "why_tests_cant": "All byte strings as arguments; overrunning an array by one often has no visible effect.", "anchors": ["libmy/argv.c: do_list, do_arg, check_or, string_to_value"]}
{"id": "C93", "title": "Only one of -u or -a may be given", "statement": "fstrm_capture and fstrm_replay refuse a command line with both a unix socket path and an internet address.", "quantifier": "all command lines", "why_tests_cant": "All command lines in all spellings.", "anchors": ["man/fstrm_capture.1", "man/fstrm_replay.1", "src/fstrm_capture.c: parse_args", "src/fstrm_replay.c: parse_args"]}
{"id": "C94", "title": "Killing fstrm_capture leaves well-formed beginnings", "statement": "If fstrm_capture is killed at any moment, every output file is the beginning of a well-formed stream with the configured content type: no byte is missing in the middle, none is out of order, and after a stop between two events the file contains only START, recorded frames in order and STOP, cut off somewhere.", "quantifier": "all runs, all moments between and within calls of the C library, all ways in which the library passes its buffers on, all results of calls that the program ignores", "why_tests_cant": "All crash points and buffer states.", "anchors": ["src/fstrm_capture.c: open_write_file, open_write_start, close_write_file, process_data_frame, do_sighup"]}
{"id": "C95", "title": "SIGHUP makes recorded frames durable", "statement": "When fstrm_capture has handled SIGHUP and no flushing has failed, every frame recorded in the current file so far is in the file and remains there whatever happens to the program later, until the same file is opened again.", "quantifier": "all runs up to the signal, all continuations and crash points, all buffer states, all clients", "why_tests_cant": "All crash points after the signal.", "anchors": ["src/fstrm_capture.c: do_sighup, process_data_frame"]}
{"id": "C96", "title": "Exit status 0 means complete files", "statement": "If fstrm_capture ends with status 0, every file it has written contains START, all frames recorded since it was opened, in order, and STOP.", "quantifier": "all runs, all results of calls of the C library, all buffer states", "why_tests_cant": "All runs and all combinations of failing calls.", "anchors": ["src/fstrm_capture.c: main, close_write_file, rotate_output"]}
{"id": "C97", "title": "fstrm_capture never passes over a failing write", "statement": "If writing to an output file is reported to fail, fstrm_capture ends with status 1.", "quantifier": "all runs, all clients, all environments", "why_tests_cant": "All positions of the failure.", "anchors": ["src/fstrm_capture.c: process_data_frame, open_write_file, close_write_file, rotate_output, main"]}
{"id": "C98", "title": "Socket writers hold at most one descriptor and use only their own", "statement": "A unix or tcp writer holds at most one file descriptor at any time, holds one when a frame has been written successfully, and none when an open writer has been closed, whatever fstrm_writer_close returns. Every system call it makes on a descriptor is made on one it created itself and has not closed yet, so it never closes, reads or writes a descriptor of another part of the process that got the same number.", "quantifier": "all histories of calls, all results of socket, fcntl, setsockopt, connect, sendmsg, read and close, all platforms (SOCK_CLOEXEC, FD_CLOEXEC, SO_NOSIGPIPE defined or not), all descriptors opened and closed by other threads in between", "why_tests_cant": "Descriptor numbers are reused; a double close only does harm if another thread opens a file in between.", "anchors": ["fstrm/unix_writer.c: fstrm__unix_writer_op_open, fstrm__unix_writer_op_close", "fstrm/tcp_writer.c: fstrm__tcp_writer_op_open, fstrm__tcp_writer_op_close"]}
{"id": "C99", "title": "Programs started by the process do not inherit sockets", "statement": "A program that the process starts (fork and exec in another thread) at any time does not get the descriptor of a unix or tcp writer.", "quantifier": "all histories of calls, all results of system calls, all moments at which a program is started", "why_tests_cant": "The race between socket and fcntl is a window of a few instructions.", "anchors": ["fstrm/unix_writer.c: fstrm__unix_writer_op_open", "fstrm/tcp_writer.c: fstrm__tcp_writer_op_open"]}
{"id": "C100", "title": "Writing to a peer that is gone raises no signal", "statement": "No system call of a unix or tcp writer can raise SIGPIPE, so the program is not killed when the peer has closed the connection; the failure is reported by the return value.", "quantifier": "all histories of calls, all results of system calls, all platforms (MSG_NOSIGNAL and SO_NOSIGPIPE defined or not), all descriptors opened and closed by other threads in between", "why_tests_cant": "Depends on the moment the peer closes and on the platform.", "anchors": ["fstrm/unix_writer.c: fstrm__unix_writer_op_open, fstrm__unix_writer_op_write", "fstrm/tcp_writer.c: fstrm__tcp_writer_op_open, fstrm__tcp_writer_op_write", "fstrm/fstrm-private.h: MSG_NOSIGNAL"]}
{"id": "C101", "title": "The transport is used by the I/O thread only", "statement": "After fstrm_iothr_init the callbacks of the transport are invoked by the I/O thread only, so they need not be thread safe, and SIGPIPE (which that thread blocks) cannot hit another thread; the exception is the destroy callback, which fstrm_iothr_destroy invokes once, after the I/O thread has ended. After fstrm_iothr_destroy has returned no callback is invoked any more.", "quantifier": "all schedules of producers, I/O thread and the destroying thread, all options, all transports", "why_tests_cant": "All interleavings.", "anchors": ["fstrm/iothr.c: fstrm__iothr_thr, fstrm_iothr_submit, fstrm_iothr_destroy", "fstrm/writer.c: fstrm_writer_destroy"]}
{"id": "C102", "title": "A peer cannot keep fstrm_iothr_destroy from returning", "statement": "Whatever the other end of a connection does, in particular when it stops sending in the middle of the handshake or of the closing sequence while it keeps the connection open, fstrm_iothr_destroy returns. (False of the code: there is no time limit on waiting for ACCEPT or FINISH. It is shown exactly for which parts of the peer's answers destroy has not returned, and that it returns once all of ACCEPT and FINISH has arrived.)", "quantifier": "all schedules of a program that destroys its I/O thread, all payloads and options, all numbers of bytes the peer has sent", "why_tests_cant": "A hang has no observable end, and there are as many places to stop as the peer sends bytes.", "anchors": ["fstrm/iothr.c: fstrm_iothr_destroy, fstrm__iothr_thr", "fstrm/writer.c: fstrm_writer_open, fstrm_writer_close, fstrm__writer_open_bidirectional", "fstrm/unix_writer.c: fstrm__unix_writer_op_read"]}
{"id": "C103", "title": "Exit status 0 of fstrm_dump means that everything was printed", "statement": "When fstrm_dump exits with status 0, every data frame it read has its complete line on standard output. (False of the code: the results of all calls that print are ignored. Proved: what was printed is always part of the right lines in the right order, and exactly these lines if no call fails.)", "quantifier": "every input, every sequence of failures on input, output and standard output", "why_tests_cant": "A full disk or closed pipe can occur at every byte.", "anchors": ["src/fstrm_dump.c: print_data_frame, main", "libmy/print_string.h: print_string"]}
{"id": "C104", "title": "A copy that fstrm_dump writes to \"-\" is a valid stream", "statement": "With \"-\" as output, what fstrm_dump leaves on standard output is a valid stream with the frames of the input. (False of the code: the lines are printed to the same standard output, so the copy cannot be read whenever there is a data frame. Proved: exactly what is left there, for every input and every failure.)", "quantifier": "every input, every sequence of failures on input and standard output", "why_tests_cant": "All inputs and all positions of a failure.", "anchors": ["src/fstrm_dump.c: main, print_data_frame", "fstrm/file.c: fstrm__file_op_open"]}
{"id": "C105", "title": "Submitting never waits for I/O", "statement": "fstrm_iothr_submit returns, accepting or refusing the payload, within a fixed number of its own steps, whatever the I/O thread, the transport and the peer do. With queues for one producer (lock-free) it waits for nobody: not even for an I/O thread that has stopped running (on ia64 its memory barriers wait until its own stores have reached memory). With queues for several producers it waits only while another thread holds the mutex of the queue; a thread that holds it releases it within a fixed number of its own steps, and does nothing but access the queue meanwhile.", "quantifier": "all schedules of all threads at every single access to memory, all options, all transports, all payloads, all kinds of queue", "why_tests_cant": "A bound on waiting is about all schedules, including those in which other threads are stopped at any access.", "anchors": ["fstrm/iothr.c: fstrm_iothr_submit, fstrm__iothr_thr, fstrm__iothr_process_queues", "libmy/my_queue_mb.c: my_queue_mb_insert", "libmy/my_queue_mutex.c: my_queue_mutex_insert, my_queue_mutex_remove"]}
{"id": "C106", "title": "A slow or absent peer cannot make the library hold more than a fixed number of payloads", "statement": "At every moment, at most output_queue_size + num_input_queues * (input_queue_size - 1) payloads that submit has accepted have not yet been given to their free function.", "quantifier": "all schedules at every single access to memory, all options, all transports with any results, all payloads, all kinds of queue", "why_tests_cant": "Depends on all schedules and on how long the transport fails.", "anchors": ["fstrm/iothr.c: fstrm_iothr_submit, fstrm__iothr_process_queues, fstrm__iothr_maybe_flush_output", "libmy/my_queue_mb.c: my_queue_mb_insert", "libmy/my_queue_mutex.c: my_queue_mutex_insert"]}
{"id": "C107", "title": "-b and -c limit what fstrm_capture buffers", "statement": "For every client fstrm_capture holds at most the buffer size plus one ACCEPT and one FINISH frame in bytes received and not yet recorded, or not yet sent; with -c n, at most n times that in total.", "quantifier": "all clients, whatever they send, in whatever pieces, and whether or not they read the answers; all numbers of connections, all signals, all failures on the output", "why_tests_cant": "All histories of all clients together.", "anchors": ["src/fstrm_capture.c: cb_accept_conn, cb_read, can_read_full_frame, process_control_frame, send_frame, cb_close_conn", "man/fstrm_capture.1: -b, -c"]}
{"id": "C108", "title": "fstrm_capture and fstrm_replay do not start with options they do not know", "statement": "If an argument is a long option that is no abbreviation of any option's name, or one that abbreviates two, or contains a letter that no option has, or if there is a word that belongs to no option, anything at all behind --, or an option without its value at the end, the program does not start: it exits or, with further mistakes, what it does is undefined; in no case does it connect, listen, or write a file.", "quantifier": "all command lines with such a mistake at any position, all other arguments, environments and argument files", "why_tests_cant": "All strings as arguments at all positions.", "anchors": ["libmy/argv.c: do_list, do_arg, argv_process", "src/fstrm_capture.c: parse_args, g_args", "src/fstrm_replay.c: parse_args, g_args"]}
{"id": "C109", "title": "Numbers on the command line are numbers", "statement": "fstrm_capture does not start if the value of -b, -c or -s is not a number, and otherwise uses the number that was given. (The first part is false of the code: any word is accepted and means the default. Proved: numbers within the range of int are understood.)", "quantifier": "all words and numbers as values, all settings before them", "why_tests_cant": "All strings.", "anchors": ["libmy/argv.c: string_to_value", "src/fstrm_capture.c: parse_args", "man/fstrm_capture.1: -b, -c, -s"]}
{"id": "C110", "title": "An argument file counts as its lines", "statement": "--argv-file=path has the same effect as the lines of the file, each as one argument, in its place; if the file cannot be opened the program does not start. (False of the code for lines of more than 1023 bytes, which become several arguments. Proved for shorter lines without zero bytes, none of them --, where the memory for pending options is not overrun.)", "quantifier": "all files, all arguments before and after, all environments without GLOBAL_ARGV", "why_tests_cant": "All contents of files and all command lines.", "anchors": ["libmy/argv.c: file_args, do_list", "libmy/argv_loc.h: FILE_LINE_SIZE"]}
{"id": "C111", "title": "What goes into fstrm_replay comes out of fstrm_dump", "statement": "If fstrm_replay processes send files that are complete streams (of fstrm_capture's content type or without type, with frames that fit into its buffers of at most 1048580 bytes) to one fstrm_capture, no output file is overwritten and no output fails, then every replay waits for the server or exits with status 0, silently, with all its frames recorded; fstrm_dump succeeds on every closed output file; and the frames printed for all files together contain, in order, those of each replay that has ended. If only one replay has frames and nobody else connects, what is printed for all output files one after the other are exactly the frames of the replayed files, in order. While the server runs and the connection lasts, the network always has something left to do until the replay has ended.", "quantifier": "all numbers of replays, files and frames, all ways the network can cut and interleave the bytes, all signals and rotations, all other clients sending anything (except lengths of nearly 2^32)", "why_tests_cant": "Three programs, any number of processes, all schedules of the network and all contents.", "anchors": ["src/fstrm_replay.c: main, process_file, init_writer", "src/fstrm_capture.c: cb_read, process_data_frame", "src/fstrm_dump.c: main, print_string"]}
{"id": "C112", "title": "Lock-free queue is correct on ia64", "statement": "The single-producer single-consumer queue delivers exactly the inserted elements in order, uncorrupted, and never reports full or empty wrongly, on ia64 too, where stores to different locations may become visible in any order between fences; an element is visible to the consumer when the insertion has returned. This needs the volatile reads to be acquire loads, as compilers for ia64 make them: with plain loads an element that was never inserted can be returned.", "quantifier": "all queue and element sizes, all interleavings of single memory accesses, all delays and all orders in which pending stores become visible", "why_tests_cant": "Needs an ia64 machine and all its memory orders.", "anchors": ["libmy/my_queue_mb.c: my_queue_mb_insert, my_queue_mb_remove", "libmy/my_memory_barrier.h"]}
{"id": "C113", "title": "fstrm_iothr_init reports what it cannot get", "statement": "If the system refuses a clock, a mutex, a condition variable or the thread, or the queue size is refused, fstrm_iothr_init returns NULL and leaves the writer with the caller; otherwise it returns an object with a running thread that has taken the writer. (The first part is false of the code: NULL is never returned.)", "quantifier": "all options, all platforms, all combinations of results of the pthread functions, builds with and without assertions", "why_tests_cant": "A test cannot make each of these calls fail.", "anchors": ["fstrm/iothr.c: fstrm_iothr_init, fstrm_iothr_destroy", "libmy/my_queue_mutex.c: my_queue_mutex_init", "fstrm/iothr.h: fstrm_iothr_init"]}
{"id": "C114", "title": "Names tell control frame types", "statement": "fstrm_control_type_to_str gives each control frame type its name in the protocol and FSTRM_CONTROL_UNKNOWN for exactly those values that fstrm_control_set_type refuses, so that equal names mean equal types; likewise for field types.", "quantifier": "all values of the enumeration's type", "why_tests_cant": "All numbers.", "anchors": ["fstrm/control.c: fstrm_control_type_to_str, fstrm_control_field_type_to_str, fstrm_control_set_type", "fstrm/control.h"]}
{"id": "C115", "title": "Limited socket buffers cannot deadlock clients and fstrm_capture", "statement": "If connections hold only so many bytes that were sent and not read (at least one in each direction), so that a client blocks in its write call while the server has not read, and the server keeps what does not fit, then still nobody gets stuck: whatever happens can also happen over unlimited connections; a client waits for the server, is blocked with its connection full or has ended with success; and while the server runs, the network always has something to do for a client that was accepted and whose connection does not break, until the client has ended with success and all its frames have been written. This holds for programs with a writer, programs with I/O threads (down to the single memory accesses of their threads) and fstrm_replay.", "quantifier": "all capacities, all numbers of clients and frames, all ways the network can cut and interleave the bytes, all signals and rotations, all other clients sending anything (except lengths of nearly 2^32)", "why_tests_cant": "Deadlocks need particular buffer sizes and schedules.", "anchors": ["fstrm/writer.c: fstrm_writer_open, fstrm_writer_writev, fstrm_writer_close", "src/fstrm_capture.c: cb_read, cb_write, cb_close_conn, process_data_frame", "src/fstrm_replay.c: main"]}
{"id": "C116", "title": "I/O threads do not raise SIGPIPE in the program", "statement": "A program that gives a unix or tcp writer to fstrm_iothr_init is not hit by SIGPIPE when the peer goes away: no thread that does not block this signal makes a system call for the writer that can raise it. This holds on every platform, also where a writer used directly would be hit (see the property about SIGPIPE and writers).", "quantifier": "all platforms, all peers, all results of system calls, all calls of the API by any number of threads, all schedules, all signal masks of the thread that creates the object", "why_tests_cant": "Depends on the platform and on a peer that goes away at the right moment, in every schedule.", "anchors": ["fstrm/iothr.c: fstrm__iothr_thr_setup, fstrm__iothr_thr, fstrm_iothr_init, fstrm_iothr_destroy", "fstrm/unix_writer.c: fstrm__unix_writer_op_write", "fstrm/tcp_writer.c: fstrm__tcp_writer_op_write"]}
{"id": "C117", "title": "Timeouts of the I/O thread are elapsed time", "statement": "A wait of the I/O thread that nobody ends earlier lasts flush_timeout seconds and two attempts to open the output are at least reopen_interval seconds apart, both counted in elapsed time (up to the resolution of the clocks), whatever is done to the time of day meanwhile, and an attempt that is due is not put off by setting the time of day.", "quantifier": "all builds (with and without clock_gettime and pthread_condattr_setclock), all platforms, all options, all instants, everything the clocks can show", "why_tests_cant": "A test would have to set the system's clock, on several platforms, and to hit the end of a second.", "anchors": ["fstrm/iothr.c: fstrm__iothr_thr, fstrm__iothr_maybe_open, fstrm_iothr_init", "fstrm/time.c", "libmy/my_time.h: my_gettime"]}
{"id": "C118", "title": "SIGTERM and SIGINT end fstrm_capture in order, whenever they come", "statement": "Whenever SIGTERM or SIGINT comes, and however often, fstrm_capture finishes its output with what it has recorded and exits with the status that tells whether it could; its behaviour is never undefined.", "quantifier": "all options, clients and results of writing; all moments at which signals can come, any number of signals", "why_tests_cant": "A signal has to hit the program between two particular instructions.", "anchors": ["src/fstrm_capture.c: shutdown_handler, setup_signals, setup_event_loop, cleanup, main"]}
{"id": "C119", "title": "A connection is a pair of byte pipes", "statement": "On a connection whose calls do not fail, a program behaves as if what it sends and what it receives were two sequences of bytes: in whatever pieces the peer's bytes arrive and however often the calls are interrupted by signals, each call of a writer returns the same result, each frame submitted to an I/O thread, down to single memory accesses of the threads, is treated the same way and in the same order, and fstrm_replay has the same exit status and messages as with the whole sequence at hand; and the bytes the peer gets are the same, on one connection.", "quantifier": "all options, sequences of frames, I/O thread options and schedules, replayed files; all replies of the peer; all ways of cutting them into pieces and all interruptions; sends that take all bytes or are interrupted before the first byte", "why_tests_cant": "The pieces in which a stream arrives and the moments of signals are up to the kernel.", "anchors": ["fstrm/unix_writer.c, fstrm/tcp_writer.c: the open, close, read and write methods", "fstrm/rdwr.c: fstrm_rdwr_read, fstrm_rdwr_write, fstrm__rdwr_read_control_frame", "fstrm/writer.c", "fstrm/iothr.c", "src/fstrm_replay.c: main"]}
{"id": "C120", "title": "Command lines of fstrm_capture and fstrm_replay that fit each other transfer the files", "statement": "If fstrm_capture has been started by a command line and runs, and fstrm_replay is started by a command line with the same content type and the same (non-empty) address, and the replay gets everything the server sends it, then it has connected to the address where the server listens, exits with status 0 and without a message, and what the server has written for it are exactly the frames of the files named on the command line, file by file, in order, whatever other clients do.", "quantifier": "all command lines in the documented notation, in any order and with repeated options; all files on disk; all other clients, pieces and schedules of the server; connections whose calls do not fail and whose sends are not cut short", "why_tests_cant": "The two command lines range over all spellings, and the server serves any number of other clients at the same time.", "anchors": ["src/fstrm_capture.c: main, parse_args", "src/fstrm_replay.c: main, parse_args", "libmy/argv.c: argv_process", "fstrm/unix_writer.c", "fstrm/tcp_writer.c"]}
{"id": "C121", "title": "Programs with I/O threads reach the output files of fstrm_capture, in every interleaving of memory accesses", "statement": "Any number of programs, each with producer threads that submit to the input queues of an I/O thread over a connection, run against one fstrm_capture; the operations on the queues are single memory accesses of the threads, stores may be delayed (lock-free queues) or the accesses are under a mutex. Then nothing that happens is undefined; every program waits for the server or has destroyed its I/O thread without a failing call; what the server has written for a program that has ended is, once each, every payload for which submit had returned success when destroy was called, and otherwise only payloads for which submit has returned success, those of one thread and queue in the order of submission; they are in the output files if none was overwritten and none failed; and while the server runs the network always has something to do for an accepted program whose connection lasts, until the program has ended, and only a bounded number of bytes to move.", "quantifier": "all numbers of programs and threads; all options made by the setters with a power of two as the queue size; all interleavings of memory accesses and all delays of stores; all payloads that fit into the server's buffers; all ways the network can cut and interleave bytes; all signals and rotations; all other clients sending anything (except lengths of nearly 2^32)", "why_tests_cant": "Schedules of memory accesses, of several processes and of the network at the same time.", "anchors": ["fstrm/iothr.c: fstrm_iothr_submit, fstrm__iothr_thr, fstrm_iothr_destroy", "libmy/my_queue_mb.c", "libmy/my_queue_mutex.c", "fstrm/writer.c", "src/fstrm_capture.c: cb_read, process_data_frame"]}
{"id": "C122", "title": "Threads that use an I/O thread have no data races", "statement": "Threads may get queue handles, submit (to one queue each, or with queues for multiple producers to the same ones) and destroy at the same time as the I/O thread works, without a data race in the sense of C11: any two accesses of different threads to the same memory, one of them writing, are ordered by mutexes or by the end of the I/O thread. This holds for the library's memory and for the payloads, which the client writes before submitting them and the free function may write when it is called.", "quantifier": "all options, numbers of threads, payloads and writers; all interleavings of memory accesses", "why_tests_cant": "Races show up only in some schedules and on some machines, and a race detector sees only the schedules that happen.", "anchors": ["fstrm/iothr.c: fstrm_iothr_submit, fstrm_iothr_get_input_queue, fstrm_iothr_destroy, fstrm__iothr_thr, fstrm__iothr_free_queues", "libmy/my_queue_mutex.c: my_queue_insert, my_queue_remove", "libmy/my_queue_mb.c"]}
{"id": "C123", "title": "Threads reach a library reader through an I/O thread, in every interleaving of memory accesses", "statement": "Threads of a program submit payloads to the input queues of an I/O thread with a bidirectional writer; another program reads from a bidirectional reader with a content type in common until told to stop. The operations on the queues are single memory accesses, and stores may be delayed as the machine allows. However the network, limited or not, cuts and interleaves the bytes, neither side gets stuck: each waits for the other or has finished successfully, and the number of steps of the network is bounded. In the end the I/O thread has been destroyed without a failing call and the reader has delivered, once each, every payload for which submit had returned success when destroy was called, and otherwise only payloads for which submit has returned success, those of one thread and queue in the order of submission.", "quantifier": "all numbers of threads, payloads the reader takes, content types within the protocol's limits; all options made by the setters with a power of two as the queue size; all machines, interleavings of memory accesses and delays of stores; all ways the network can cut and interleave bytes; all capacities of the pipes", "why_tests_cant": "Schedules of memory accesses, of two processes and of the network at the same time.", "anchors": ["fstrm/iothr.c: fstrm_iothr_submit, fstrm__iothr_thr, fstrm_iothr_destroy", "libmy/my_queue_mb.c", "libmy/my_queue_mutex.c", "fstrm/writer.c", "fstrm/reader.c"]}
{"id": "C124", "title": "A payload submitted without a lock is read as it was written", "statement": "With the queue that has no lock, what a thread wrote into a payload before it submitted the payload is what the I/O thread reads after it has taken the entry out of the queue, as long as the thread has not written to it again.", "quantifier": "all queue and element sizes; all contents of memory and addresses; all interleavings of the memory accesses of the two threads, delays of stores, and on ia64 orders in which stores become visible", "why_tests_cant": "Whether a store is seen late depends on the machine and on timing; on common machines the wrong order almost never shows.", "anchors": ["libmy/my_queue_mb.c: my_queue_mb_insert, my_queue_mb_remove", "libmy/my_memory_barrier.h", "fstrm/iothr.c: fstrm_iothr_submit"]}
{"id": "C125", "title": "Running out of memory ends the process and does nothing else", "statement": "Whatever a program does with the library's objects, and whichever allocations fail: either the process is aborted by an assertion at the failing allocation, or every call returns what it would have returned with enough memory. No call goes on with a NULL pointer, reports a wrong result or loses data.", "quantifier": "all client programs over control objects, options, transports, writers, readers and I/O threads; all sets of failing allocations", "why_tests_cant": "Tests do not exhaust memory, and there are as many points of failure as allocations in all histories.", "anchors": ["libmy/my_alloc.h: my_malloc, my_calloc, my_realloc, my_strdup", "fstrm/control.c", "fstrm/writer.c", "fstrm/reader.c", "fstrm/iothr.c: fstrm_iothr_init"]}
{"id": "C126", "title": "Empty content types are accepted on every system", "statement": "A content type may be the empty string: adding one to a control object or options, or receiving a control frame that has one, works on every system that follows the C standard.", "quantifier": "all client programs and peers; systems where malloc(0) returns a block and systems where it returns NULL", "why_tests_cant": "Tests run on one system.", "anchors": ["fstrm/control.c: fstrm_control_add_field_content_type, fstrm_control_decode", "fstrm/writer.c: fstrm_writer_options_add_content_type, fstrm_writer_init", "fstrm/reader.c: fstrm_reader_options_add_content_type, fstrm_reader_init", "libmy/my_alloc.h: my_malloc"]}
{"id": "C127", "title": "fstrm_dump can rewrite a file in place", "statement": "Running fstrm_dump with the same file as input and output either leaves that file with the same data frames and content type or exits with an error status.", "quantifier": "all input files; all amounts that the C library has read ahead; all sequences of I/O errors", "why_tests_cant": "Tests use files that fit into the read buffer of the C library, where nothing is lost.", "anchors": ["src/fstrm_dump.c: main", "fstrm/file.c: fstrm__file_op_open, fstrm__file_op_read, fstrm__file_op_write"]}
{"id": "C128", "title": "No input queue can starve another", "statement": "The I/O thread serves its input queues in turn. A payload is overtaken by later payloads of any other queue at most once more often than there are payloads ahead of it in its own queue when it is submitted, and so at most input_queue_size - 1 times, however fast the other producers are.", "quantifier": "all interleavings of any number of producers, the I/O thread and destroy; all option values; all failures of the output", "why_tests_cant": "Starvation depends on the relative speed of threads; tests see a few schedules and no lower bound on service.", "anchors": ["fstrm/iothr.c: fstrm__iothr_process_queues, fstrm__iothr_thr, fstrm_iothr_submit"]}
{"id": "C129", "title": "Copying a copy changes nothing", "statement": "If fstrm_dump with an output file exits with success, whatever its input was, then running it again on that output file succeeds, writes an identical file and prints the same lines.", "quantifier": "all inputs, valid or not; all I/O errors in the first run; all lengths of frames and streams", "why_tests_cant": "Tests copy a few well-formed files once.", "anchors": ["src/fstrm_dump.c: main, print_string", "fstrm/file.c", "fstrm/reader.c", "fstrm/writer.c"]}
{"id": "C130", "title": "Accepted payloads leave their queue, and full queues accept again", "statement": "While the I/O thread runs and destroy has not been called, every accepted payload leaves its input queue within a number of steps of the I/O thread that depends on the number and size of the queues only, and so a queue that was full accepts again. The I/O thread does not begin to wait while a payload that was there when it began to look at its queues is still in one.", "quantifier": "all interleavings of any number of producers and the I/O thread; all option values; all failures of the output", "why_tests_cant": "Progress concerns all continuations of all executions; a test sees that something has happened by the time it looks.", "anchors": ["fstrm/iothr.c: fstrm__iothr_process_queues, fstrm__iothr_thr, fstrm_iothr_submit"]}
{"id": "C131", "title": "Payloads are released while the program runs", "statement": "Once the submission of a payload has succeeded, the I/O thread frees it, calling its free function if it has one, within a number of its steps that depends only on the number of input queues and the sizes of the input queues and the output buffer, as long as fstrm_iothr_destroy has not been called: a payload is not kept until shutdown. Only waits that end without a reason may add to that number.", "quantifier": "all interleavings of any number of producers and the I/O thread; all option values; all failures of the output", "why_tests_cant": "The bound concerns all continuations of all executions, including those in which producers keep the queues busy and the output fails at any call.", "anchors": ["fstrm/iothr.c: fstrm__iothr_process_queue_entry, fstrm__iothr_maybe_flush_output, fstrm__iothr_flush_output, fstrm__iothr_thr"]}
{"id": "C132", "title": "Free functions are called by the I/O thread, outside all locks", "statement": "The free function of a payload is called by the I/O thread, or by fstrm_iothr_destroy, after the I/O thread has ended, for payloads left in the input queues. It is never called by a thread in fstrm_iothr_submit, and no two calls made for one fstrm_iothr object overlap. While the I/O thread calls a free function it holds no lock of a queue, so that a slow free function does not keep producers waiting for the lock.", "quantifier": "all interleavings of memory accesses of any number of producers and the I/O thread, for every kind of queue; all option values", "why_tests_cant": "That a call never comes from some thread, or never with some lock held, is a statement about all schedules; a test sees the schedules that happen.", "anchors": ["fstrm/iothr.c: fstrm__iothr_queue_entry_free_bytes, fstrm__iothr_free_queues, fstrm__iothr_flush_output, fstrm__iothr_process_queue_entry, fstrm_iothr_submit, fstrm_iothr_destroy", "libmy/my_queue_mutex.c: my_queue_mutex_remove"]}
{"id": "C133", "title": "A peer cannot make a reader or writer hold much memory", "statement": "Whatever its peer sends and in whatever order it is called, the memory that a reader or writer uses and can reach between calls is bounded by its options alone (what is lost by the leak of C86 is not reachable any more and not counted): of each kind of control frame it keeps at most one, with at most 63 content types and 508 bytes in all; a reader's frame buffer has at most max(512, 2*max_frame_size) bytes; the frames it sent itself contain only its own content types.", "quantifier": "all transports and everything they deliver, all option values, all histories of calls", "why_tests_cant": "A test sends some hostile inputs; that no input and no history of calls accumulates memory needs an invariant.", "anchors": ["fstrm/reader.c: fstrm_reader_read, fstrm_reader_open", "fstrm/writer.c: fstrm_writer_open, fstrm_writer_close", "fstrm/rdwr.c: fstrm__rdwr_read_control_frame", "fstrm/control.c: fstrm_control_decode", "libmy/vector.h: reserve"]}
{"id": "C134", "title": "A reader takes no more from the transport than what it returns", "statement": "Opening a reader takes from the transport exactly the handshake frames. When a read returns a payload, the bytes taken are those up to the last byte of its data frame and no more; when it reports the end of the stream, those up to the last byte of the STOP frame. So a payload is returned as soon as its frame has arrived completely, even if nothing follows and a read of more would block for ever, and what follows a STOP frame is left on the transport.", "quantifier": "all transports, all ways in which the bytes of a stream arrive in pieces between the calls, all bytes that follow, all control frames in between, all option values", "why_tests_cant": "Read-ahead shows only when the right bytes are late; a test tries some ways of cutting a stream into pieces, of which there are exponentially many.", "anchors": ["fstrm/reader.c: fstrm_reader_open, fstrm_reader_read, fstrm__reader_next_data", "fstrm/rdwr.c: fstrm_rdwr_read, fstrm__rdwr_read_control_frame"]}
{"id": "C135", "title": "A writer has handed over what it was given when the call returns", "statement": "A writer keeps nothing back. When a write or writev call on an open writer returns success, all its frames have been handed to the transport; when it reports an error, a beginning of its frames has, at the limits of frames, and nothing else. Such a call uses the write callback only, and the close callback when a write has failed, so it never waits for bytes of the peer. A call that opens the writer and succeeds has handed over READY, if the transport can be read, START and then the frames of the call.", "quantifier": "all transports with any failures, all histories of calls before, all batch sizes", "why_tests_cant": "A writer that buffers passes every test that looks at the output after closing it; for which histories and batch sizes something is kept back, no set of tests can settle.", "anchors": ["fstrm/writer.c: fstrm_writer_write, fstrm_writer_writev, fstrm__writer_write_iov, fstrm__writer_write_iov_stupid, fstrm_writer_open", "fstrm/rdwr.c: fstrm_rdwr_write"]}
{"id": "C136", "title": "After the end of a stream or an error a reader delivers nothing more", "statement": "Once a reader was open and a read has returned without a payload, at the end of the stream, for a failure of the transport or of the decoder, or for a frame that is too long, no later call delivers a payload or takes bytes from the transport, and no later read reports success, until fstrm_reader_open is called. So bytes from the middle of a broken or skipped frame are never taken for frames.", "quantifier": "all transports and everything they deliver, all histories of calls before and after", "why_tests_cant": "Reading on after an error depends on the state left by each of the many ways to fail, at every point of every stream; tests cover some of them.", "anchors": ["fstrm/reader.c: fstrm_reader_read, fstrm__reader_next_data, fstrm__reader_maybe_open, fstrm_reader_close, fstrm_reader_get_control"]}
{"id": "C137", "title": "Allocated objects lie where their types may lie", "statement": "Whatever addresses malloc and calloc return, within what they promise about alignment, every member of every object and array that the library and fstrm_capture allocate lies at a multiple of the alignment its type asks for, inside the allocated memory, and does not overlap with other members.", "quantifier": "all platforms (sizes and alignments of the basic types), all addresses an allocation can return, all array lengths, all allocated structures", "why_tests_cant": "Whether an object is misplaced depends on the address the allocator happens to return; on most machines nothing visible happens.", "anchors": ["fstrm/control.c: fstrm_control_init", "fstrm/iothr.c: fstrm_iothr_init", "fstrm/writer.c: fstrm_writer_init", "fstrm/reader.c: fstrm_reader_init", "libmy/my_queue_mutex.c: struct my_queue, my_queue_mutex_init", "libmy/my_queue_mb.c: my_queue_mb_init", "libmy/vector.h: VECTOR_GENERATE", "libmy/my_alloc.h: my_calloc, my_malloc"]}
{"id": "C138", "title": "Payloads from malloc can be submitted with fstrm_free_wrapper", "statement": "A program that takes payloads from malloc and submits them with fstrm_free_wrapper as free function, each block at most once between two allocations, has no double free, no free of something else and no use after free, although malloc may return the same address again as soon as a payload has been freed: each block is given back once, what the writer reads from a block are the bytes that were submitted, other blocks of the program (those of refused payloads, static objects submitted without a free function) are left alone, and when fstrm_iothr_destroy has returned no accepted payload is still allocated.", "quantifier": "all executions of the I/O thread and any number of producers, down to interleavings of memory accesses; all addresses malloc may return, used again or not; all transports", "why_tests_cant": "Reuse of addresses depends on the allocator and the schedule; a test sees one allocator under few schedules.", "anchors": ["fstrm/iothr.c: fstrm_free_wrapper, fstrm__iothr_queue_entry_free_bytes, fstrm_iothr_submit, fstrm__iothr_flush_output, fstrm__iothr_free_queues", "fstrm/iothr.h: fstrm_free_wrapper"]}
{"id": "C139", "title": "What an I/O thread has written to a file is there, and stays there", "statement": "When an I/O thread writes to a file, the file is at every moment, also if the program is killed then, as it was before or a beginning of one well-formed stream of accepted payloads, those of each queue in the order of submission and none twice. What has once been written to the file stays there as long as the I/O thread works.", "quantifier": "all patterns of failing and succeeding calls of the C library, all amounts it buffers, all moments of all executions with any number of producers, down to interleavings of memory accesses", "why_tests_cant": "The contents after a crash depend on the moment of the crash, on buffering and on earlier failures; a test tries few of them.", "anchors": ["fstrm/file.c: fstrm__file_op_open, fstrm__file_op_write, fstrm__file_op_close", "fstrm/iothr.c: fstrm__iothr_maybe_open, fstrm__iothr_flush_output, fstrm__iothr_thr", "fstrm/writer.c: fstrm_writer_open, fstrm_writer_writev, fstrm_writer_close"]}
{"id": "C140", "title": "I/O threads can write to standard output and to files, whatever fails", "statement": "When an I/O thread has been given a writer for \"-\", what was on standard output before stays there and is followed by a beginning of one well-formed stream of accepted payloads, those of each queue in the order of submission and none twice. Failing writes never lead an I/O thread into undefined behaviour, neither on standard output nor on a named file.", "quantifier": "all patterns of failing and succeeding calls of the C library, all amounts it buffers, all executions with any number of producers, down to interleavings of memory accesses", "why_tests_cant": "What happens after a failure depends on when the output fails and when the I/O thread tries to open it again; tests write to outputs that do not fail.", "anchors": ["fstrm/file.c: fstrm__file_op_open, fstrm__file_op_write, fstrm__file_op_close", "fstrm/iothr.c: fstrm__iothr_maybe_open, fstrm__iothr_flush_output, fstrm__iothr_close, fstrm__iothr_thr", "fstrm/writer.c: fstrm_writer_open, fstrm_writer_writev, fstrm_writer_close"]}
