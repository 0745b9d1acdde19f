# Formal model of fstrm in Lean 4

This directory holds a machine-checked model of farsightsec/fstrm (the C code
in /repo) and theorems about it. `properties.jsonl` lists the properties in
English, `MANIFEST.json` maps each property to theorem names.

## Layout

* `lean/Verif/Spec/*`   small independent specifications (wire format, FIFO,
  traces of calls, what a server is asked for, ...).
* `lean/Verif/Model/*`  the model, function by function, each definition
  citing the C lines it models.
* `lean/Verif/Lemmas/*` helper lemmas. Not part of what has to be reviewed.
* `lean/Verif/Props/*`  the property theorems, each accompanied by an `example`
  showing a concrete non-trivial instance of its hypotheses.
* `seeded/LOG.jsonl`    mutation log: wrong programs and the theorems that
  reject them. "failed" lists theorems whose proof no longer checks after the edit,
  which is weaker than the statement being false; where an edit is known to leave
  the claim true the entry has a note. Few or no edits aimed at C131 (release of
  payloads access by access) and C137 were run.

## Modelling conventions

* `Bytes = List UInt8`. `size_t`/`int` quantities are `Nat` (no wrap at 2^64);
  `uint32_t` quantities whose wrap-around matters are reduced mod 2^32
  explicitly (frame length prefixes, capture's total length, queue indices,
  the I/O thread's byte counter).
* `Exec a = Except Stuck a`. `Stuck.ub` is undefined behaviour (out of bounds
  access, zero length VLA, use of an uninitialised result, NULL dereference),
  `Stuck.abort` is a failing `assert`, `Stuck.fuel` is "the loop has not
  finished after the given number of iterations" (unbounded C loops get an
  explicit iteration budget; theorems say which budget suffices or hold for
  all budgets), `Stuck.wait` is "blocked on input that has not arrived".
* `malloc` never fails (`my_malloc` asserts) and `malloc(0) != NULL`, except in the heap model (C86-C88, C125, C126), where any allocation may fail. Assertions are compiled in.
* A transport (`struct fstrm_rdwr_ops`) is an arbitrary record of callbacks over
  an arbitrary state type, so "for every transport behaviour" is a universally
  quantified variable. `Rdwr.log` is a ghost field recording callback calls.
* Environments (kernel, stdio, clock, libevent, other processes) are scripts
  or event lists that theorems quantify over.
* Threads are modelled as interleavings of labelled steps; the lock-free queue
  is modelled at the granularity of single memory accesses under x86-TSO and on ia64.
* A blocking program connected to a pipe (C27, C72) is run again from the start
  on all bytes delivered so far. It is deterministic, so this gives the same
  behaviour as suspending it; where it blocks it ends in `Stuck.wait` with
  everything it has sent. Pipes are unbounded, a program never blocks on
  sending, except in `Spec/Pipe.lean`, `Spec/IoPipe.lean`, `Spec/QPipe.lean` and `Spec/FleetPipe.lean` (C27, C75, C115, C123), where it ends in `Stuck.full` when its pipe is full.

## Plan per property

| id | modelled | how proved |
|----|----------|-----------|
| C01-C09 | control.c + buffer helpers with explicit memory | structural induction over content types / fuel induction; round trip; refinement to Spec.Wire. C06 false: negation + `_partial` |
| C10-C14 | writer.c, rdwr.c over an arbitrary transport | induction over call lists; C12, C13 false (empty frame = escape, htonl truncation): negation with witness + `_partial` |
| C15,C16 | writer handshake | C15 false (match flag never set back): negation + exact characterisation |
| C17-C26 | reader.c over any transport serving a byte stream | induction over frames/bytes; C20, C21, C23, C25, C26 false: negation + `_partial` |
| C27 | writer and reader connected by byte pipes with arbitrary delivery, unlimited or holding only so many unread bytes | invariant over delivery steps, bound on their number, no deadlock; the limited pipes are reduced to the unlimited ones by showing that a program over a limited pipe does the same until the pipe is full; false when the common content type is not the writer's first: negation + `_partial` |
| C28,C29 | rdwr.c call log | invariant by induction over call histories; C29 false for failed handshakes |
| C30,C31 | read_bytes loop, sendmsg loop with scripted kernel results | induction over the script; C31 false: negation + `_partial` |
| C32-C34 | my_queue_mb.c / my_queue_mutex.c in 32-bit arithmetic; TSO machine; mutex machine | refinement to a bounded FIFO, invariant over all TSO steps, linearizability |
| C35,C36 | option setters, fstrm_iothr_init | case analysis; both false for odd queue sizes: negation + exact range |
| C37-C45 | iothr.c as a labelled transition system with the real writer model | invariants by induction over action lists; C40, C42, C45 false in part |
| C46-C53,C66 | fstrm_capture.c connection machine, output files, listener | invariants by induction over event lists against Spec.Capture; C46, C48-C51, C53 false in part |
| C54,C55,C68,C103,C104 | fstrm_dump main loop (standard output is a stdio stream shared with the writer for `-`) over the reader/writer/file models | induction over frames; C55 false; C54 false for frames above the limit; C103, C104 false (witnesses), partial theorems by an invariant of the shared stream |
| C56,C69 | fstrm_replay main loop, any transport | induction over files and frames; C69 false; C56 false for frames above the limit |
| C57 | print_string | induction; injectivity false |
| C58 | vector.h/ubuf.h with capacity | refinement to lists |
| C59 | strtoul-based port parsing, path length check | induction over the digit string; false for some numerals |
| C60-C63 | writer, file and socket models | invariants over call histories: no `Stuck.ub`; false for zero length control frames, reuse of standard streams, short sends |
| C61,C67,C71 | file.c with scripted stdio | invariant relating file contents, buffer and submitted frames; C71 for the path "-" |
| C64 | I/O thread over the file writer, then the reader | composition of C38/C39, C61 and C17 |
| C65 | reader and writer close | case analysis over the transport |
| C70 | bidirectional writer, ghost record of what each connection carried | invariant over call histories; for sockets only without short sends |
| C72 | writers (as in C27) connected to the model of fstrm_capture | invariant over network moves and server events, composed from C27, C46, C47, C53, C66 |
| C73 | I/O thread over a bidirectional writer (generic transport, sockets) | I/O thread invariant composed with the per-connection invariant of C70 |
| C74 | I/O thread programs (schedule of their threads) connected to the model of fstrm_capture | the I/O thread is shown to make the same calls whatever the writer's transport, as long as they succeed (`Lemmas/IothrSwap.lean`), so each program looks to the server like a client of C72 |
| C75 | I/O thread program and a library reader over two pipes | as C74, composed with C27; over limited pipes by comparing each step over a limited and an unlimited pipe |
| C76 | get_control of writer and reader, and what the transport's log shows | invariant of call histories: the kept frames are those at the last handshake in the log; false parts by witnesses |
| C77 | output of fstrm_capture with the calls of `time` and `open` as events | invariant over the reading loop and all events |
| C78 | I/O thread over a bidirectional writer that reconnects; fstrm_capture at the other end | per-connection invariant of C70/C73, counting failed writes too, composed with what the server records of a beginning of a stream (C46) |
| C79 | I/O thread over the ring buffers as they are in memory (`Model/IothrQueues.lean`) | each queue implementation (lock-free on x86-64, lock-free on ia64, mutex) simulates a FIFO with insertions under way (`QImpl.Correct`); the composition makes transitions of the I/O thread with atomic queues, plus safety |
| C80 | same | simulation: the invariants behind C37-C41 and C43 are about transitions (`Trs`), which the composition makes; accounting of submissions per thread and queue |
| C81 | parse_args and main of fstrm_capture.c up to the event loop | case analysis against Spec.CaptureStart; false in part |
| C82 | fstrm/time.c and its use in iothr.c | case analysis over the platform; false without a clock |
| C83 | options and address of fstrm_replay.c, next to those of fstrm_capture.c | case analysis against the same specification of addresses (Spec.CaptureStart) |
| C84 | the same model as C79 | a measure that every effective step decreases (work of producers, remove calls left, accesses left in the current one), and that a fair schedule contains an effective step until everything is over |
| C85 | I/O thread with its condition variable; the real queues access by access | induction over the calls made while the thread waits; false as documented: negation + `_partial` |
| C86 | control.c, rdwr.c, writer.c, reader.c once more with every allocation and deallocation (`Model/Heap.lean`); client programs over any number of objects (`Spec/HeapHistory.lean`) | simulation: each function of the heap model does what the value model does and turns the blocks of its arguments into those of its results; induction over client programs; false when a reader is reopened after STOP: negation + `_partial` |
| C87 | same | invariant from the call that returns the pointer to the call that ends its life |
| C88 | options and constructors of file.c, unix_writer.c, tcp_writer.c, `fstrm_iothr_init` and `_destroy` with every allocation and deallocation (`Model/HeapInit.lean`); client programs in `Spec/HeapLife.lean` | simulation as for C86, over the invariant linking the I/O thread's log to its writer |
| C89 | argv.c for the two programs' arrays of options (`Model/Argv.lean`); `Spec/CommandLine.lean` has the options, how they may be written and what they mean | one step of the parser per setting, induction over the list of settings |
| C90 | the same, with any arguments, environment and argument files | invariant of the parser: a used option has a value or is waiting for one |
| C91 | the same | the parser's loop over an appended list |
| C92 | the same; undefined behaviour is an outcome of the parser | false (witnesses); for arguments that avoid them: bounds on the queue and the numbers, by induction |
| C93 | the same with the start of both programs | false of fstrm_capture (witness); for fstrm_replay from C89 and C90 |
| C94 | calls of the C library made by fstrm_capture.c, with a specification of buffered files (Spec.Disk) | false (witness); else the list of calls only writes to open files and each file's bytes begin a stream, then induction over calls |
| C95, C96 | the same | invariant of all runs without failing writes (no assumption about clients), then induction over calls; C96 false (witness) |
| C97 | the same | the same invariant |
| C98–C100 | unix_writer.c and tcp_writer.c down to system calls, with a specification of descriptors and of what other threads do (Spec.Descr) | invariants of the callbacks along every use of the transport; C99 false (witness), C100 false without `MSG_NOSIGNAL` and `SO_NOSIGPIPE` (witness); refinement to Model.Sock |
| C101 | iothr.c, writer.c as for C37-C45 | invariants: the I/O thread's flag agrees with the writer's state; both are closed when the thread has ended |
| C102 | the program of C75 (Spec.IoNet) given any part of the peer's answers | false of the code (witness); exact characterisation by comparison with a plain writer, as for C75 |
| C105 | iothr.c over all queues, down to accesses to memory (Model.IothrQueues) | a measure of the accesses left in a call, which every access of the thread decreases and no other step increases; for the mutex also the holder's |
| C106 | the same | invariant: what is accepted and not freed is in a queue or in the output queue, both bounded |
| C107 | fstrm_capture.c | invariant: the input buffer is within the limit of libevent, the output buffer within what the state of the connection allows; with C52 |
| C108 | argv.c | once an error flag is set it stays set (invariant of the parser); each kind of mistake sets it; with the manuals as specification |
| C109 | argv.c | false (any word counts as 0); partial from C89 |
| C110 | argv.c, `file_args` | the lines read are the lines of the file; a defined result does not change with more room for pending options or more depth (simulation) |
| C111 | fstrm_replay.c, fstrm_capture.c, fstrm_dump.c together | for every beginning of the server's replies a replay does what a program does that writes the same frames; then C72, C53, C54 |
| C112 | my_queue_mb.c on ia64: pending stores become visible in any order, `mf` waits for all | simulation: every run has a run of C33's machine with the same log and memory; a byte pending here is one not copied yet there |
| C113 | iothr.c, `fstrm_iothr_init` with results of the pthread functions | case analysis over every call; the documented NULL is unreachable |
| C114 | control.c, name tables | case analysis on the value |
| C115 | writer, I/O thread (with atomic queues and with queues in memory), fstrm_replay against fstrm_capture over limited connections | each limited program is a cut of the unlimited one; runs over limited connections are runs of C72, and in a settled state a full connection leads to a contradiction |
| C116 | iothr.c with its thread's signal mask, over unix and tcp writers (C98-C100) | invariant: the thread works only after it has blocked the signal; steps of other threads make no system calls that can raise it, as the writer is closed whenever they touch it |
| C117 | iothr.c and time.c in every build, with what the clocks show at each instant | the clock chosen runs with elapsed time; false in other builds and, for reopening, by up to a second (witnesses) |
| C118 | fstrm_capture.c, `main` in steps with signals between them, around the event model | invariant relating positions of `main` to runs of the event model; false before the handlers are installed, after the event base is freed and inside functions that must not be interrupted |
| C119 | unix_writer.c, tcp_writer.c under rdwr.c, writer.c, iothr.c (with atomic queues and with queues in memory), fstrm_replay.c | simulation of a run over two byte sequences by a run over the socket model, call by call; short sends are C31 |
| C120 | argv.c, fstrm_capture.c, fstrm_replay.c together | C82/C83 for the command lines and addresses, C111 for the transfer, C119 for the socket |
| C121 | iothr.c, my_queue_mb.c, my_queue_mutex.c, writer.c, fstrm_capture.c together | C79/C80 for the queues; a program looks at nothing of its writer but the results of calls (simulation), so from outside it is a program that calls the writer, then C60 |
| C122 | iothr.c with the queues, each step with the memory it accesses and the mutexes it takes (Model/IothrAccess.lean); data races in Spec/Race.lean | invariant: for each place, who knows of all accesses to it so far: the thread that owns it, who locks the mutex next, or who joins the I/O thread; false for `shutting_down` and for the lock-free queue (witnesses) |
| C123 | the programs of C121 and the reader of C27 over two pipes | as C121: from outside the program is one that calls the writer, then C27; over limited pipes as C75. False of the code for other than the first content type (witness) |
| C124 | my_queue_mb.c:103-140 on both machines as in C79 and C112, with the producer's stores to payloads and the consumer's loads from them | invariant: for each address the stores in the log are those in memory followed by those pending, and these come after every visible element |
| C125 | the heap model of C86 and C88, in which any allocations may fail (`Heap.denied`); `my_alloc.h` aborts then | the simulation of C86 with abort as a further outcome |
| C126 | the same, with `malloc(0)` returning NULL or not (`Heap.zeroNull`) | corollary where it does not; false where it does (witness) |
| C127 | fstrm_dump's main loop where the input's contents beyond what stdio has read ahead are what the output's stream has passed on | simulation by the run on two files with a shorter input; invariant: no more written than read. False of the code (for every frame not read ahead) |
| C128 | the I/O thread model, unchanged, with atomic queues and with queues access by access | inductive invariant relating the cursor of the I/O thread, the place of a payload in its queue and the later payloads of another queue already taken |
| C129 | fstrm_dump, unchanged | composition of what a successful run leaves (for every input) with what a run does with a well-formed stream |
| C130 | the I/O thread model, unchanged; and the same with queue operations as memory accesses | ranking function: entries in front times the length of a pass, plus the distance of the thread from the queue; every step of the I/O thread except waiting decreases it, no other step changes it. Access by access the rank also counts whether the look in progress may miss the entry, and what is left of the remove call |
| C131 | the I/O thread model, unchanged | negation: an invariant of a loop in which the output stays closed and one payload stays in the output buffer, by induction on the number of rounds. Partial: ranking function, free room of the output buffer times the length of three passes plus the distance of the thread from its next wait; payloads discarded while the output is closed and waits ended without reason are charged separately. Also access by access: the same ranking times the longest remove call, plus the rest of the one in progress; entries which that call may miss do not count as present |
| C132 | the I/O thread with queue operations as memory accesses | case analysis of the step that calls the free function; the relation between queue states and the I/O thread of C79 after that step |
| C133 | readers and writers over arbitrary transports | invariant over histories of calls; a decoded control frame has at most 512 bytes, of which 4 are its type and 8 go to each content type besides its bytes |
| C134 | readers over transports on which bytes arrive between the calls and longer reads may block | induction over the arrivals and reads, with the bytes that are there as the invariant |
| C135 | writers over arbitrary transports | what each call adds to the log of the callbacks; the state of the writer over histories of calls |
| C136 | readers over arbitrary transports | the state of the reader over histories of calls |
| C137 | the structures as lists of member types, over an arbitrary platform; placement as C compilers do it | alignment of a structure is a common multiple of its members' alignments and divides its size; induction on the members. Negation: the alignment 64 of the mutex does not divide every address calloc may return |
| C138 | the events of executions of the I/O thread, interpreted over blocks of memory whose addresses can be used again | invariant on blocks and payloads not freed yet, from the order of events (C37), for executions with atomic queue operations and for interleavings of memory accesses |
| C139 | I/O thread over the file writer, with scripted stdio | composition of C61 with the calls of the I/O thread and the order of payloads (C38); file contents only grow in write and close callbacks. Negation: reopening truncates |
| C140 | I/O thread over the file writer, path "-" | composition of C71 with the calls of the I/O thread; the stream is not closed before the first failed call (invariant), safety as in C40 for a transport that is opened once. Named files: instance of C40 and C79. Negation: standard output is opened again after close |

## Properties that are false of the code

Each has a theorem with a concrete witness, most of them for every value in a
class, and a `_partial` theorem with the strongest part that holds.

| id | what is wrong | theorem |
|----|---------------|---------|
| C06 | payloads of 505 to 512 bytes can be encoded but not decoded with header | `header_limits_disagree` |
| C12 | an empty frame is the escape sequence | `empty_frame_corrupts` |
| C13 | frames of 2^32 bytes or more get a wrong prefix | `large_frame_prefix_wrong` |
| C85 | `queue_notify_threshold` is compared with the free, not the outstanding entries | `notify_wrong`, `notify_never` |
| C15, C27, C75, C123 | only the writer's first content type counts in the negotiation | `negotiation_needs_first`, `net_compatible_fails`, `queues_compatible_fails` |
| C20, C55 | a cut-off file looks like a clean end | `truncation_looks_clean`, `dump_accepts_truncated` |
| C21, C54, C56 | an oversized frame is reported as success, and the callers use the data pointer | `oversize_reports_success`, `dump_oversize_ub`, `replay_oversize_ub` |
| C23, C60, C62 | control frame length zero declares an array of length zero | `reader_zero_length_ub`, `writer_zero_length_ub`; nothing else goes wrong: `reader_only_zero_array`, `writer_only_zero_array` |
| C25 | ACCEPT without types means anything | `empty_accept` |
| C26 | unknown control frames are fatal | `unknown_control_fatal` |
| C29 | a failed handshake leaves the transport open | `writer_destroy_leaks`, `reader_destroy_leaks` |
| C31, C63 | short sends repeat bytes and read past the iovec array | `sock_write_duplicates`, `sock_single_buffer_ub` |
| C34 | the lock-free queue loses data with two producers (as documented) | `lockfree_two_producers_lose` |
| C35, C36 | any even queue size is accepted; sizes that are no power of two crash | `input_queue_size_wrong`, `iothr_init_ub`, `iothr_init_ub_all` |
| C40 | the byte counter wraps for payloads of almost 4 GiB | `output_limits_wrong` |
| C42 | no first open attempt while the clock is below the reopen interval | `first_open_wrong` |
| C45 | signals restart the flush timeout | `flush_timeout_wrong` |
| C46, C51 | the four largest frame lengths wrap | `capture_files_false`, `hostile_length` |
| C48 | data frames before READY are recorded | `recorded_before_handshake` |
| C49 | a READY frame of exactly 512 bytes is refused | `ready_512_rejected` |
| C50 | a read that fills the buffer with the start of an oversized frame stalls the connection | `oversize_stall` |
| C53 | rotation with a fixed name truncates the file just closed | `rotation_overwrites` |
| C57 | backslashes are not escaped | `print_not_injective` |
| C59 | the empty string and negative numerals are accepted as ports | `tcp_port_quirks` |
| C62 | "-" cannot be reused after close | `stdout_reuse_ub` |
| C69 | a failed close and skipped files leave exit status 0 | `replay_ignores_close`, `replay_skips_files` |
| C70 | after a failed handshake READY is repeated on the same connection | `writer_repeats_ready` |
| C76 | get_control can report success without a frame, and after a failed reopening the stored frame can be of another type than asked for | `writer_get_control_null`, `reader_get_control_null`, `writer_get_control_stale` |
| C81 | the output file is truncated and the socket path removed before the program knows that it can listen; whatever is at the path is removed, socket or not | `failed_start_destroys`, `ordinary_file_removed` |
| C82 | without a usable monotonic clock initialisation is undefined behaviour | `iothr_no_clock_ub` |
| C83 | with an empty unix path fstrm_capture and fstrm_replay use different addresses outside the file system | `empty_path_wrong` |
| C86 | reopening a reader after the end of its stream leaks the STOP frame | `leak_on_reopen` |
| C92 | `-ttt`, argument files and `--argv-file -5` corrupt memory, numbers out of range reach `atoi`, argc 0 is not handled, `check_or` reads behind the array | `capture_ttt`, `replay_ttt`, `capture_file`, `capture_null`, `capture_number`, `no_arguments`, `replay_past_end` |
| C93 | fstrm_capture accepts -u together with -a | `capture_both` |
| C94 | the result of `fflush` is ignored; what it could not write is lost and the program goes on | `capture_killed_false` |
| C96 | the result of `fclose` is ignored; the program ends with status 0 | `capture_exit_false` |
| C99 | without `SOCK_CLOEXEC` in the kernel, a program started between `socket` and `fcntl` gets the socket | `sock_inherited` |
| C100 | on systems with neither `MSG_NOSIGNAL` nor `SO_NOSIGPIPE` sending raises `SIGPIPE` | `sock_sigpipe` |
| C102 | there is no time limit on waiting for ACCEPT or FINISH: a silent peer that keeps the connection open keeps `fstrm_iothr_destroy` from returning | `destroy_hangs` |
| C103 | `fstrm_dump` ignores the results of everything that prints: exit status 0 with nothing printed | `dump_print_failure_unnoticed`, `dump_prints_nothing` |
| C104 | with the output `-` the printed lines are mixed into the copy | `dump_dash_unreadable` |
| C109 | `-b many` is accepted and means the default, as `atoi` reports no errors | `capture_numbers_not_refused` |
| C110 | lines of more than 1023 bytes become several arguments | `argv_file_long` |
| C113 | `fstrm_iothr_init` never returns NULL: failures are assertions or lead into `fstrm_iothr_destroy` with a thread that was never created | `iothr_start_never_null`, `iothr_thread_limit` |
| C117 | whole seconds make the reopen interval short by up to a second; builds without `clock_gettime` or `pthread_condattr_setclock` go by the time of day | `reopen_early`, `flush_wait_set_back`, `reopen_set_back` |
| C118 | signals before `setup_signals` kill; during `cleanup` they use the freed event base; `event_base_loopexit` is not async-signal-safe | `capture_term_early`, `capture_term_late`, `capture_term_inside` |
| C122 | `shutting_down` is accessed without synchronization; the lock-free queue uses barriers, which do not synchronize in C11 | `shutting_races`, `lockfree_races` |
| C126 | where `malloc(0)` returns NULL an empty content type aborts the process | `empty_type_aborts` |
| C127 | `fstrm_dump f f` truncates `f` before having read all of it: the frames not yet read ahead are lost, exit status 0 | `dump_in_place_loses` |
| C137 | `struct my_queue` of my_queue_mutex.c asks for an alignment of 64 but is allocated with `calloc` | `queue_misplaced` |
| C139 | after a failed write the I/O thread opens its file again with mode "w": what had been written to it is lost, silently | `reopen_loses` |
| C140 | after a failed write to "-" the I/O thread closes standard output and later writes to the closed stream | `iothr_stdout_ub` |

## What is modelled

| file | model | not modelled |
|------|-------|--------------|
| fstrm/control.c | Model/Control.lean, Model/ControlNames.lean | |
| fstrm/rdwr.c | Model/Rdwr.lean | |
| fstrm/writer.c | Model/Writer.lean | |
| fstrm/reader.c | Model/Reader.lean | |
| fstrm/file.c | Model/File.lean, over scripted stdio outcomes | `setvbuf` |
| fstrm/unix_writer.c, fstrm/tcp_writer.c, libmy/read_bytes.h | Model/Sock.lean, Model/FdSock.lean, Model/Addr.lean | `inet_pton`/`inet_ntop` (a parameter) |
| fstrm/iothr.c | Model/IothrOptions.lean, Model/Iothr.lean, Model/IothrQueues.lean, Model/IothrStart.lean, Model/IothrSignal.lean, Model/IothrAccess.lean, Model/FreeWrapper.lean | `pthread_*` failures after initialisation, thread naming |
| libmy/my_queue_mb.c, my_queue_mutex.c, my_memory_barrier.h | Model/Queue.lean, QueueTso.lean, QueueIa64.lean, QueueMt.lean, with payloads in QueuePayload.lean, their accesses for C122 in IothrAccess.lean | |
| libmy/vector.h, ubuf.h | Model/Vector.lean | `ubuf_add_fmt` and other printf helpers; arguments aliasing the vector |
| libmy/print_string.h | Model/PrintString.lean | |
| src/fstrm_capture.c | Model/Capture.lean, Model/CaptureMain.lean, Model/CaptureSignal.lean | `strftime` and `inet_pton` (parameters), log output, `bufferevent` allocation failures; `fflush`, `fclose` and exit are calls whose ignored results are free (Spec/Disk.lean), crashes of the machine are not considered |
| src/fstrm_dump.c | Model/Dump.lean, Model/DumpInPlace.lean (input and output the same file) | `setvbuf`, errors on standard error |
| src/fstrm_replay.c | Model/Replay.lean, Model/ReplayMain.lean | |
| fstrm/time.c | Model/Clock.lean, Model/ClockBuild.lean | the error text, which no caller asks for |
| libmy/my_alloc.h | Model/Heap.lean: addresses and which of them are allocated, for control, rdwr, writer and reader objects and their options; Model/HeapInit.lean: the same for the options and objects of files and sockets and the I/O thread; Model/Layout.lean: alignment, for C137 | sizes other than 0 |
| libmy/argv.c | Model/Argv.lean | option types other than those of the two programs, messages and usage texts, `argv_process` called more than once, `argv_cleanup`, allocation failure |
| libmy/my_time.h | `my_gettime` in Model/ClockBuild.lean | the other functions, which only tests use |

Assumptions about the environment:

* I/O thread: input queues are atomic bounded FIFOs, which is what C32-C34
  prove of the two implementations; C79 and C80 do without this assumption, with the queues of
  QueueTso.lean and QueueMt.lean; each step of the model contains at most one
  access to shared state; `shutting_down` is read and written atomically; writer calls return.
* `fstrm_capture`: libevent is a list of events. It calls the read callback
  after each read, with an input buffer made of any non-empty pieces and never above the
  high watermark; it calls the write callback when the output buffer has become empty; it accepts
  only while the listener is enabled; errors and end of file close the connection.
  libevent reads at most 4096 bytes at a time, so the stall of `oversize_stall` needs a
  buffer of at most about 4100 bytes. `remaining_connections` is an unbounded integer.
  A failing `fwrite` is taken to have written nothing, which does not matter as the program exits.
* `fstrm_replay`: the transport of the writer is arbitrary.
* C72, C74: some connections may break at any time and strangers may send anything that
  does not announce a frame of 2^32 bytes or more in total (that is C51's defect); a frame counts as
  written when `fwrite` has taken it.
* The ghost fields (`log`, `history`, `nextId`) are only written, never read, by the model.

## Trusted base

Lean 4.33.0 kernel; the axioms `propext`, `Classical.choice`, `Quot.sound` (no
others, see below); the correspondence between the C code and `Verif/Model/*`,
which is by inspection (line references in every definition); the
specifications in `Verif/Spec/*` and the statements in `Verif/Props/*`. No
theorem rests on `sorry`, `native_decide`, `bv_decide` or compiled code. Examples
use `decide +kernel`, which is evaluated by the kernel.

## Axioms of each theorem

From `#print axioms`, for the theorems named in MANIFEST.json (all in namespace
`Fstrm.Props`).

* no axioms:
  print_not_injective

* `propext`:
  argv_file_long, capture_file, capture_null, capture_number,
  capture_term_inside, capture_ttt, close_not_open, dash_opens_no_file,
  decode_history_independent, dump_arguments, dump_prints_nothing,
  empty_accept, empty_frame_corrupts, flush_timeout_wrong, getCt_ignores_type,
  hostile_length, iothr_stdout_ub, negotiation_needs_first, no_arguments,
  notify_wrong, reader_destroy_leaks, reader_get_control_null,
  reader_zero_length_ub, reopen_early, replay_ignores_close,
  replay_skips_files, replay_ttt, sock_descriptor_leak, sock_inherited,
  sock_sigpipe, sock_single_buffer_ub, sock_write_duplicates, stdout_reuse_ub,
  tcp_port_quirks, writer_destroy_leaks, writer_get_control_null,
  writer_get_control_stale, writer_repeats_ready, writer_zero_length_ub

* `Quot.sound`:
  setter_effect

* `Quot.sound`, `propext`:
  accepted_freed_wrong, accessors_after_build, accessors_after_calls,
  build_clocks, capture_accept, capture_arguments_partial, capture_begins,
  capture_exit_status, capture_files_false, capture_rotations,
  capture_rotations_end, capture_term_ends_partial, capture_term_late,
  capture_term_partial, capture_until_told, capture_waits,
  content_type_option, control_field_names, control_type_names,
  empty_type_aborts, encode_exact, encode_safe, encodedSize_exact,
  env_arguments, failed_start_destroys, file_refuses_empty,
  first_open_partial, first_open_wrong, fleet_pipe_held,
  flush_after_timeout_partial, frees_by_io_thread, ia64_needs_acquire,
  input_queue_size_wrong, iothr_clocks, iothr_init_ub, iothr_no_clock_ub,
  iothr_start_complete, iothr_start_never_null, iothr_thread_limit,
  iovecs_bounded, leak_on_reopen, lockfree_races, lockfree_two_producers_lose,
  net_compatible_fails, notify_never, notify_partial, objects_placed_partial,
  option_defaults, output_limits_wrong, print_exact, print_injective_partial,
  print_printable, queue_misplaced, reader_close_finish, reader_end_is_final,
  reopen_loses, reopen_set_back, replay_arguments_partial, run_of_trace,
  shutting_noted, shutting_races, tcp_writer_created, touch_reads,
  touch_writes, trace_of_run, unix_writer_created, words_exist,
  write_after_close, write_after_failure, writer_discipline,
  writer_memory_bounded, writer_phases

* `Classical.choice`, `Quot.sound`, `propext`:
  accept_common_partial, accepted_bounded, accepted_freed_in_memory_partial,
  accepted_freed_partial, accepted_leaves, accepted_leaves_in_memory,
  accessors_after_decode, accessors_any_history, batching_unobservable,
  blocks_freed, blocks_freed_in_memory, callbacks_confined, callbacks_over,
  capture_accepts_partial, capture_active, capture_answers_partial,
  capture_argv_file_missing, capture_argv_file_partial, capture_both,
  capture_buffers, capture_command_line, capture_exit_false,
  capture_exit_partial, capture_exit_stream_partial, capture_files_partial,
  capture_hangup_partial, capture_killed_contents_partial,
  capture_killed_false, capture_killed_partial, capture_limit,
  capture_listens, capture_memory, capture_no_stall_partial,
  capture_numbers_not_refused, capture_numbers_partial, capture_past_end,
  capture_reads, capture_recorded_partial, capture_refuses_behind,
  capture_refuses_missing, capture_refuses_mistakes, capture_refuses_words,
  capture_rejected_partial, capture_rejects, capture_replay_meet_partial,
  capture_rotation_partial, capture_safe_partial,
  capture_segmentation_partial, capture_sighup, capture_skips_partial,
  capture_sofar_partial, capture_starts, capture_term_early,
  capture_write_error, command_lines_meet_partial, commands_meet,
  contents_total, control_pointer_valid, control_roundtrip, ct_pointer_valid,
  ctl_history_defined, data_pointer_valid, decode_encode_canonical,
  decode_encode_header_partial, decode_iff, decode_injective, decode_safe,
  delivered_are_slices, destroy_hangs, destroy_returns_partial,
  destroy_waits_for_peer, dump_accepts_truncated, dump_copies_partial,
  dump_dash_empty, dump_dash_partial, dump_dash_unreadable,
  dump_faithful_partial, dump_in_place_exact, dump_in_place_keeps,
  dump_in_place_loses, dump_in_place_partial, dump_of_dump, dump_oversize_ub,
  dump_print_failure_unnoticed, dump_prints_lines, empty_path_wrong,
  empty_type_partial, env_arguments_global, file_always_prefix,
  file_close_durable, file_crash_read, file_reader_exact, file_reader_memory,
  file_reader_only_zero_array, file_reader_safe_partial, file_round_trip,
  file_writer_memory, file_writer_safe_partial, fleet_bounded, fleet_delivers,
  fleet_files, fleet_pipe_progress, fleet_pipe_safe, fleet_progress,
  fleet_safe, flush_wait_partial, flush_wait_set_back, freed_exactly_once,
  frees_without_mutex, full_queue_reopens, header_limits_disagree,
  ia64_published, ia64_spsc, input_queue_size_iff, iofleet_bounded,
  iofleet_delivers, iofleet_files, iofleet_pipe_progress, iofleet_pipe_safe,
  iofleet_progress, iofleet_safe, iothr_clocks_exist_partial, iothr_conns,
  iothr_file_kept_partial, iothr_file_prefix, iothr_file_round_trip,
  iothr_file_safe, iothr_init_default, iothr_init_ok_partial,
  iothr_init_ub_all, iothr_memory, iothr_net_capacity_partial,
  iothr_net_partial, iothr_no_sigpipe, iothr_safe, iothr_sock_conns_partial,
  iothr_sock_stream_partial, iothr_start_partial, iothr_stdout_appends,
  iothr_stdout_safe_partial, iothr_stream, iothr_stream_bidir,
  known_control_ignored_partial, large_frame_prefix_wrong,
  lockfree_races_partial, match_iff, max_frame_size_option, memory_accounted,
  mutex_linearizable, mutex_order, mutex_races_partial, mutex_released,
  negotiated_sound, net_no_deadlock_capacity_partial, net_no_deadlock_partial,
  no_leak_partial, no_loss, no_loss_start, no_queue_starves,
  no_queue_starves_in_memory, one_address_partial, open_hands_over,
  order_preserved, ordinary_file_removed, out_of_memory,
  out_of_memory_constructors, out_of_memory_iothr, output_limits_partial,
  oversize_never_delivered_partial, oversize_reports_success, oversize_stall,
  own_noted, pipeline_delivers, pipeline_pipe_progress, pipeline_prints,
  pipeline_progress, pipeline_single, port_accepted_iff, qfleet_bounded,
  qfleet_delivers, qfleet_files, qfleet_pipe_progress, qfleet_pipe_safe,
  qfleet_progress, qfleet_safe, queue_handle_idx, queue_handles,
  queue_handles_distinct, queue_init_iff, queue_is_fifo, queue_offset_wraps,
  queues_accept, queues_compatible_fails, queues_delivery,
  queues_file_kept_partial, queues_file_prefix, queues_file_safe,
  queues_freed_exactly_once, queues_limits, queues_net_capacity_partial,
  queues_net_partial, queues_notify, queues_order, queues_safe,
  queues_settled, queues_shutdown_terminates, queues_stdout_appends,
  queues_stdout_safe_partial, reader_destroy_closes_partial,
  reader_discipline, reader_get_control_partial, reader_get_stop,
  reader_memory_bounded, reader_only_zero_array, reader_open_iff,
  reader_open_sound, reader_prompt, reader_prompt_bidirectional,
  reader_reads_stream, reader_reads_stream_bidir, reader_safe_partial,
  reader_safe_pipe_partial, reader_truncated, reads_parse_received,
  ready_512_rejected, reconnect_once, reconnect_sock_partial,
  recorded_before_handshake, removal_partial, reopen_elapsed_partial,
  reopen_rate, replay_accepts, replay_argv_file_missing,
  replay_argv_file_partial, replay_command_line, replay_completes,
  replay_connects_partial, replay_null_free, replay_oversize_ub,
  replay_past_end, replay_reads, replay_refuses_behind,
  replay_refuses_missing, replay_refuses_mistakes, replay_refuses_words,
  replay_rejects_partial, replay_reports_partial, replay_sends_partial,
  replay_sound_partial, rotation_overwrites, setter_range_partial,
  shutdown_terminates, shutdown_terminates_safe, sock_conns_partial,
  sock_descriptor_closed, sock_descriptor_destroy_partial,
  sock_descriptor_held, sock_descriptors, sock_destroy_descriptors,
  sock_destroy_no_sigpipe_partial, sock_destroy_not_inherited_partial,
  sock_no_sigpipe_partial, sock_not_inherited_partial, sock_read_exact,
  sock_read_iff, sock_refines, sock_session_conns_partial, sock_short_send,
  sock_source, sock_write_complete, sock_write_exact_partial,
  sock_writer_only_zero_array, sock_writer_open_partial,
  sock_writer_safe_partial, socket_iothr, socket_queues, socket_replay,
  socket_writer, stdout_appends, stdout_close_durable,
  stop_means_stop_partial, submit_alone, submit_wait_free,
  submit_waits_for_mutex_only, submit_waits_for_stores_only, tcp_port_partial,
  tcp_writer_memory, truncation_looks_clean, tso_exclusive, tso_published,
  tso_spsc, unix_writer_memory, unknown_control_fatal, vec_detach_hands_out,
  vec_is_list, vec_reserve_room, vec_reset_shrinks, waits_only_when_empty,
  waits_only_when_empty_in_memory, write_hands_over, write_prefix_partial,
  writer_close_finish, writer_conns, writer_destroy_closes_partial,
  writer_get_control_partial, writer_get_finish, writer_life,
  writer_only_zero_array, writer_open_bidir_partial, writer_safe_partial,
  writer_safe_uni, writer_session_conns, writer_stream, writer_stream_bidir
