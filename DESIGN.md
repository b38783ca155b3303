# Design of the formal model of st_asio_wrapper

## 1. Layout

* `lean/Verif/Model/*.lean` - executable model, function by function. Every definition cites the
  file and lines of `/repo` it models and names its simplifications.
* `lean/Verif/Spec/*.lean` - small, model-independent specifications (ideal byte strings, ideal frames,
  ideal queues ...). A reader only needs the specification and the statement of a property theorem.
* `lean/Verif/Lemmas/*.lean` - helper lemmas and invariants.
* `lean/Verif/Props/*.lean` - the property theorems (names `Cnn_...`), each with an `example` showing that
  its hypotheses are met by a concrete non-trivial case.
* `MANIFEST.json` - property -> theorem names and status. `seeded/LOG.jsonl` - mutation log.

## 2. Modelling conventions

* Bytes are `UInt8`, byte strings `List UInt8`. Buffer offsets and lengths are `Nat`; `size_t`/`unsigned`
  wrap-around is modelled explicitly (`% 2^64`, `% 2^32`) wherever the property is about it or where
  a value is attacker controlled. `(size_t) -1` sentinels are `Option.none`.
* C++ undefined behaviour (failing `assert`, out-of-bounds access, use of the result of a failed
  precondition) is a distinct outcome (`none`/`ub`) of the modelled function; properties prove it is unreachable.
* Compile-time configuration (`ST_ASIO_MSG_BUFFER_SIZE`, head width, limits, feature macros) are parameters.
* Boost.Asio is not modelled as code; its contract is: `async_read(stream, buffer, cond)` first calls
  `cond(ec=0, 0)`, then repeatedly reads 1..min(cond result, space left) bytes (any number the network
  likes), stops when `cond` returns 0, the buffer is full or the stream fails, then calls the handler once.
  `async_write` completes once with success of all bytes or an error. A strand runs at most one handler at a time;
  posted handlers run eventually in any order the scheduler likes (the models allow any order, which is weaker
  than the FIFO order of a strand, except where stated).
* Concurrency: threads are modelled as interleavings of atomic steps (one step per access to shared state:
  flag load/exchange/store, one locked queue operation, one handler in a strand). Sequential consistency is assumed;
  weak-memory effects of the `volatile` fields are outside of the model.

## 3. Plan per property

| id | model | proof |
|----|-------|-------|
| C01-C03 | `Model/Unpacker`: parse loop, parse_msg, completion_condition, prepare_next_recv, plus the asio read loop | invariant over an arbitrary sequence of network arrivals relating delivered messages + buffer to an ideal greedy frame decoder |
| C04 | `Model/Flexible` | same decoder spec, state relation with an extra "big message" phase |
| C05 | `Model/Simple` | state relation, two phases |
| C06, C09 | `Model/Simple` (fixed length, stream, udp) | induction over arrivals |
| C07, C08 | `Model/PrefixSuffix` | relation with ideal delimiter decoder; C08 is false (see findings): witness + partial |
| C10-C12 | `Model/Packer` | algebra, 64 bit wrap-around; C12 false for one configuration: witness + partial |
| C13-C15 | `Model/BasicBuffer` | refinement to an ideal list over operation sequences; C15 false: witness + partial |
| C16, C17 | `Model/Queue` | refinement to list with exact byte count |
| C18, C19 | `Model/SendBuffer` | decision logic + invariants over operations |
| C20-C23 | `Model/TcpSend`: small-step concurrent machine | inductive invariants over all interleavings |
| C24 | `Model/UdpSend` | same |
| C25-C27 | `Model/RecvDispatch` | inductive invariants over interleavings; C26 false after reconnect: witness + partial |
| C28 | `Model/SyncRecv` | inductive invariants over interleavings |
| C29, C30 | `Model/Lifecycle`, `Model/Shutdown` | inductive invariants; `Props/C29_Fair` and `Props/C30_Fair` show for infinite fair executions that a close() that succeeded is followed by on_close and that a shutdown asked for ends with a broken link |
| C31 | `Model/Heartbeat` | decision logic + trace argument |
| C32, C33 | `Model/Timer`, `Model/TimerRace` | inductive invariants; C33 false: witness |
| C34-C36 | `Model/ObjectPool` | inductive invariants; C36 false in general: witness + partial |
| C37, C54 | `Model/IoContext` | inductive invariants |
| C38, C55 | `Model/ThreadNum` | inductive invariants; both false in general: witnesses + partial |
| C39 | `Model/Services` | event traces checked against a monitor; false in general: witnesses + partial |
| C40 | `Model/Reconnect` | transition system invariants |
| C41-C43 | `Model/Socks` | encoding theorems, parse loop over arrivals; last clause of C42 false: witness + partial |
| C44-C46 | `Model/FileTransfer` | arithmetic + induction |
| C47 | `Model/Accept` | invariants over events |
| C48 | `Model/Statistic` | induction over events |
| C49 | `Model/ReliableUdp` | invariants over events |
| C50 | `Model/Handshake` | invariants over events |
| C51 | `Model/Callbacks` | case analysis over all combinators |
| C52 | `Model/TcpSend` | consequence of the order theorem; false with priority sends and shrinking |
| C53 | `Model/SendBuffer` | induction over attempts |
| C56 | `Model/EndToEnd`: packer, `Model/TcpSend`, a byte pipe, reader with unpacker, `Model/RecvDispatch` put together | composition of the invariants, work measure for progress; under continuous load by projecting a fair execution to sender and receiver (`Lemmas/Fair`: `Exec.project`) |
| C57-C59 | `Model/RecvModes`: reception and dispatching with the batch, synchronous and passive macros in all combinations | inductive invariants, ideal receiver as a monitor, work measure; C57 false after a reconnection: witness + partial |
| C60, C61 | `Model/UdpAddr`: addresses of received and sent datagrams, with and without connect mode | event traces checked against a monitor; C60 is stated up to the first failed receive (reception ends with it: witness), C61 false for datagrams of others: witnesses + partial |
| C62, C63 | `Model/MultiService`: service_pump with a service of many sockets, the inner steps of add_socket and start_service | inductive invariants, ideal observer as a monitor, progress as existence of a continuation; both false in general: witnesses + partial |
| C64 | `Model/SendApi`: the send functions with the caller's variables | case analysis over the overloads, induction over attempts; false for oversized arrays, empty messages and stopped io_contexts: witnesses + partial |
| C65 | `Model/Broadcast`: any number of threads going over the pool under its mutex, with adding, closing and removing sockets and sending | invariants over all interleavings; the common order is the order in which the mutex was got; witnesses for prior broadcasts and a shared mutex |
| C66 | same | from every reachable state with a running io_context a continuation in which the call returns is constructed; false for stopped io_contexts, blocked service threads and unpackable messages: witnesses that no continuation returns + partial |
| C67 | message objects: numbered buffer objects, messages are references to them; program variables, a list, sockets with send buffer and messages in flight | simulation of a specification in which messages are byte strings, by induction over action sequences; uniqueness of owners for unique_buffer as invariant; false for shared objects changed after sending: witnesses + partial; reception by simulation of the wrapped unpacker |
| C68 | raw_data, raw_data_len of all packers and unpackers as offset and 64 bit length | from the exact results of packing (C10, C11) and of reception (C01, C04, C07); counterexamples for empty arrays, pieces, fixed_length_packer, changed stripped() |
| C69 | one direction of a websocket link: send functions, send buffer and strand of C20 with one message per write, one message per read, parse_msg, receiving side of C25; beast as a channel that keeps messages whole and in order | invariant tying link, send buffer and receive history; work measure for termination; counterexamples for all send functions but send_native_msg of one message; `Props/C69_Fair`: infinite fair executions |
| C70 | both directions of a link (C56) joined by on_msg_handle(msg) {return send_msg(msg);}: ST_ASIO_MAX_SEND_BUF decides whether the message is taken or handed over again later | invariant tying the messages sent by the server to those it handled; weighted work measure for both directions; bounds of both buffers; for ever, under fairness (`C70_no_starvation`): if the server refused from some moment on, its send buffer would drain, so it accepts again and again, and C56 applies to each direction |
| C71, C72 | one timer with a monotonic and a system clock, call backs that take time, ST_ASIO_ALIGNED_TIMER arithmetic with its conversions | invariant tying the outstanding wait, queued expiries and running calls to the history; exact arithmetic of the aligned wait; counterexamples for restarts at bad times, clock adjustments, interval 0 |
| C73, C74 | `Model/Links`: packer and `Model/TcpSend` over any number of links; a user's on_send_error that does nothing, or puts the messages back | relation between the accepted messages, the streams of all links, the reports and the send buffer, by induction over the actions; receiving with `Lemmas/Unpacker`; continuation with `C22_drains`; counterexamples for messages in two pieces |
| C75 | `Model/KcpPipe`: `Model/ReliableUdp` (sender), KCP as an in-order message channel, the loop over ikcp_recv, `Model/RecvDispatch` (receiver) | invariant: received = the messages KCP took that are complete, cut before the first one that does not fit into the buffer (`takeWhile`); delivery by the work measures of C49 and C26. Partial: a message longer than the receiver's ST_ASIO_MSG_BUFFER_SIZE, or refused by ikcp_send, is not delivered |
| C76 | `Model/Notify`: send_handler in three steps (on_msg_send; look into the send buffer and on_all_msg_send; the rest) around `Model/TcpSend` and `Model/UdpSend`, other threads in between | simulation by the inner machine; accounting over the ideal sender (accepted = written + failed + removed + waiting + in flight); invariant: while the last event is a write, not on_all_msg_send, somebody still has messages |
| C77 | `Model/UdpAddr` (as C60) | invariant: unless a receive failed since the start, an open socket has a receive outstanding, a handler to run or its reception suspended; work measure for the library's steps; after a failed receive: invariant "nobody receives" over every continuation |
| C78 | `Model/UdpLife`: start, close, on_close, reset around `Model/UdpSend`, completions as the state of the socket says | simulation by `Model/UdpSend`; invariant: no fatal error since the socket is open, message in flight given to an open socket |
| C79 | `Model/Memory`: one pooled object with everything that shares it, its pending handlers (bound to plain `this`), closing timer, unique() and obsoleted() as two tests, finalize, reuse | invariant: pending handlers imply a container holds the object; measure for 'freed'; counterexamples for every hypothesis |
| C80 | `Model/TimerFunctor`: one timer of `Model/Timer` with the function objects it was given: swapped in, kept by the caller or destroyed, invoked and returned in two steps | ownership invariant over the trace of destroyed objects; one-token invariant for the is_timer() guard; induction over the rounds of a graceful shutdown for the counterexample |
| C81 | `Model/Pingpong`: one link of pingpong_client and pingpong_server, bytes counted in both directions, any cut of the streams | monitor over the trace of begun, received and reported; measure for 'ends'; counterexample by induction over the number of tests |
| C82 | `Model/Log`: log_formater::to_time_str and all_out on character arrays with arbitrary contents, writing outside is none | exact result for all sizes of the array, the level, the thread's name, the time and the text |
| C83 | `Model/Names`: socket_management's my_client and my_client_socket: map from names to links, connecting, end of receiving | relation between the map and the history's meaning of a name; counterexamples for a name used again and for links that could not be connected |
| C84 | `Model/PreAccept`: `Model/Accept` with start_next_accept overridden as in config.h:1201-1214 (counting) and as in concurrent_server (size()) | invariants for the number of accepts under way; exact number with one handler at a time; counterexample by induction over the number of connections |
| C85 | `Model/GroupLinks`: group_links and its use in echo_client | invariant for the groups: full ones, the one in work, empty ones |
| C86 | `Model/FileClient`: the list, the links and the timer of file_client, with numbers of bytes only | monitor for histories; a measure which every effective step makes smaller; loss of a link as an invariant of all continuations |
| C87 | `Model/EchoTest`: echo_client's tests against echo_server over n links, all buffers bounded | monitor for what comes back; invariant that what is on its way is what the monitor expects; a measure of remaining steps and the existence of a continuation for the end |
| C88 | `Model/LinkEnd`: `Model/Handshake` with the receiving chain and the outstanding async_shutdown / async_close; `Spec/LinkEnd`: the fairness assumed | invariant that somebody cares for a link that is being shut down; rules for fair executions (`Lemmas/Fair`): the pending forced shutdown leads to close(), then everything outstanding drains, then on_close |
| C89 | `Model/QueueRace`: every use of a queue has a beginning and an end; on_connect's thread, rw_strand, dis_strand, timers and any number of application threads interleave; `Spec/QueueRace`: when two threads overlap in a queue | invariants on where each thread may be, lock holder invariant, concrete overlaps for every condition dropped |
| C90 | `Model/RetryRace`: the timer's handler split at the test and the write of its last lines, together with dispatching and receiving which set the timer again; one or several service threads | dead states closed under every step; invariant and a decreasing measure for one thread |
| C91 | `Model/StatRace`: what each thread has still to do is a list, its first item in progress; `Spec/StatRace`: when two threads overlap in a member | invariant: which items a thread may have, receiving has one place at a time; concrete overlaps for the other members |
| C92 | `Model/Settings`: objects with settings, create_object with and without reuse, setters, the overloads of add_socket, starting again; `Spec/Settings`: what a call asks for | invariants over all histories: a setting nobody touched is at its default, settings of one socket are not changed through another; one step for what a call asks for; concrete histories for what reuse and invalid ips do |
| C93 | `Model/Protocols`: the machine of C56 with the packer calls and the unpacker of any pair (`Codec`); `Spec/Protocols`: wire form, expressible messages and what is handed over, per pair | one invariant over all runs, generic in a relation between the bytes read and the unpacker's state; the relation comes from the simulations of C01-C09 for each unpacker; a work measure for rest and termination; the same for ever, under fairness; a run with every pair |
| C94 | `Model/LinkCut`: the machine of C93 with the end of the stream, broken links, shutdown, failing async_read, close and the closing timer; `Spec/LinkCut`: the message refused last | the invariant of C93 without its liveness part, kept by every way to end; an unpacker that holds a part of a message has no message to show at the end (`Codec.Cuts`, for each unpacker); a continuation that closes, by induction on what is unread; concrete runs for the losses |
| C95 | Model/ModePipe.lean: the pipe of C93 with the receiver of Model/RecvModes.lean, i.e. every packer/unpacker pair with all eight combinations of ST_ASIO_DISPATCH_BATCH_MSG, ST_ASIO_SYNC_DISPATCH and ST_ASIO_PASSIVE_RECV; the link stays up and nobody pops messages | an invariant that contains a run of each part (Lemmas/ModePipe.lean), and by showing that the receiver always gets back to reading (Lemmas/ModePipe2.lean): `C95_in_order`, `C95_prefix`, `C95_all_handled`, `C95_delivers`, `C95_only_asked`; infinite fair executions (Lemmas/ModeFair.lean, Props/C95_Fair.lean; with passive receiving the user asking for reads is one of the fair classes): `C95_no_starvation`, and every finite run is the beginning of a fair one: `C95_fair_exists` |
| C96 | Model/UdpPipe.lean: any number of senders of Model/UdpSend.lean, a network that lets any datagram that left arrive any number of times in any order (or never) and strangers' datagrams, the udp_unpacker and the receiver of Model/RecvModes.lean in all eight modes; the sockets stay open and nobody pops messages | an invariant that contains a run of each part (Lemmas/UdpPipe.lean), sorted indices of the datagrams that left (Lemmas/UdpPipe2.lean), and runs that empty the queues: `C96_in_order`, `C96_left`, `C96_genuine`, `C96_fifo`, `C96_at_most_once`, `C96_delivers`, `C96_all_handled`; over infinite fair executions (Props/C96_Fair.lean, by projection to the sender of C24_Fair and the receiver of C95_Fair): `C96_no_starvation`, `C96_leaves`, `C96_eventually`, `C96_fair_exists` |
| C97 | Model/BufferNew.lean: the constructors of basic_buffer, with the overloads the language chooses, on top of Model/BasicBuffer.lean | case analysis with the lemmas of C13: `C97_made_partial`; false of the code: `C97_fails_part`, `C97_fails_array` |
| C98 | Model/Binding.lean: start_listen, stop_listen, starting and closing of UDP sockets with the kernel's open, bind and listen, addresses used by others and the files of unix domain sockets; Spec/Binding.lean: which address a program has been promised | invariant between the promise and the kernel's socket: `C98_listens`, `C98_listens_again`, `C98_bound_partial`, `C98_starts_again_partial`; false of the code: `C98_fails_unix`, `C98_fails_listen`, `C98_fails_family`, `C98_fails_deaf` |
| C99 | Model/Window.lean: the links of C93 and C70 over a network that holds at most `W` bytes (a restriction of what the sender's kernel may take), and `Duo`, a link both ends of which answer and refuse while their send buffer is full; Spec/Window.lean | every run is a run of the unrestricted link, so order carries over; progress: the receiver, then the network, then the sender with one byte: `C99_all_handled`, `C99_delivers`, `C99_all_answered`, `C99_answers_delivered`; for ever, under fairness: if the kernel stopped taking bytes, the receiver would read everything and there would be room, so the limit is no obstacle (`C99_no_starvation`, `C99_no_starvation_echo`); `Duo`: conservation (sent = own + handled) bounds the send buffers: `C99_circulates_partial`; negation by a closed set of blocked states: `C99_fails_both`
| C100 | Model/HeartbeatPair.lean: both ends of Model/Heartbeat.lean with their own clocks, the heartbeat timers, writes and a network, as a timed machine: time passes only as far as nothing is overdue; Spec/HeartbeatPair.lean: time since the last reception, the longest gap between writes, tolerance | invariant: since the peer's last write began at most its longest gap has passed, and what was written arrives in time; the next check of an end that is up comes at most an interval after the last second of tolerance; time can pass from every state; two settings with less reserve fail |
| C101 | Model/Dump.lean: dump_left_data with its loop over a buffer (reading behind its end is none) and its users, added to any unpacker as a list of logged texts (`dumpOps`), so that whole receptions of Model/Reader.lean can be run with it. Spec/Dump.lean: how a hex dump is read. Proof: the simulation argument of C01/C04 carries the log along; the text is read back by induction. |
| C102 | Model/ScopeLock.lean: any number of scope_atomic_lock objects, each access of the flag and of _locked a step of its own; on top of them start() and close() by any number of threads, one action per step. Spec/ScopeLock.lean: who has the lock going by what was seen, an ideal socket that is off, being started, on, being closed | the step of one thread as a relation (`ScTs`), the owner of the flag, simulation of the ideal socket, counts per thread; for infinite executions ranks of threads that need not wait, and the number of threads in a call: `C102_exclusive`, `C102_free`, `C102_again`, `C102_history`, `C102_result`, `C102_once`, `C102_start_returns`, `C102_close_returns`, `C102_fails_close_waits`, `C102_fair_exists` |
| C103 | Model/OneClient.lean: Model/Accept.lean with an on_accept that calls stop_listen; the handler reads is_listening() in a step of its own. Spec/OneClient.lean: clients since the last start_listen | invariants over events: accepts under way plus clients never exceed the number, handlers never find the server listening: `C103_at_most`, `C103_no_further_accept`, `C103_gets_in` |
| C104 | Model/Delay.lean: sender, dispatcher (single and batch) and check_receiving reduced to what reads the clock; messages carry begin_time; time passes in steps of its own and may be set back. Spec/Delay.lean: a stop-watch for every message, write, call and halt, run by the events | invariants: begin_time of every message alive is the present time less what its stop-watch shows: `C104_udp`, `C104_tcp`, `C104_dispatch`, `C104_batch_partial`, `C104_batch_handle`, `C104_idle_partial`; witnesses for what is false |
| C105 | Model/ShortClient.lean: Model/Reconnect.lean beside the thread that calls add_socket and registers the callback | invariant: after the connection reconnecting is off and no attempt is scheduled: `C105_once_partial`, `C105_stays_closed_partial`, `C105_no_race_partial`; counterexamples for a callback that comes too late |
| C106 | Model/KcpClock.lean: a timed machine of create_kcpcb, do_start, the update timer and its call back, close and on_close, with the 32-bit arithmetic of the clock | invariant relating the timer's state to the last wait KCP asked for: `C106_in_time`, `C106_not_early`, `C106_clock`, `C106_no_crash`, `C106_no_misuse_partial`, `C106_released`; counterexamples for aligned timers and for create_kcpcb before on_close |
| C107 | Model/UdpHeartbeat.lean: a timed machine of two UDP sockets, their heartbeat timers and async_send, and a network that delays, reorders, duplicates and loses (of K datagrams in a row one arrives) | invariant with the times of the last async_send and of the last datagram that is not lost; what was heard last is at most S + K * (2 * interval + J + W) + L old; a continuation in which time passes always exists |
| C108 | Model/ClientAddr.lean: the client of Model/Reconnect.lean with its kernel socket (IP version, what it is bound to), set_addr, bind and async_connect. Spec/ClientAddr.lean: which addresses a program has asked for | invariant relating what the socket is bound to to the address in force at the last start, by cases over all actions; connections counted against attempts; for addresses of different IP versions an invariant without connections |
| C109 | Model/DelayWatch.lean: a link of concurrent_client with its clock, timer, send buffer and what is on its way. Spec/DelayWatch.lean: the ideal watcher | the trace is accepted by the ideal watcher (invariant); bounds for due times and now; at most one message and its time of sending after the last start of the clock (invariant for runs with an empty send buffer at every connection) |
| C110 | Model/PassiveSync.lean: the callers and the strand of Model/SyncRecv.lean with reads that are posted by sync_recv_msg, and a link that is established after start(). Spec/PassiveSync.lean: counts of reads and of messages returned | the invariant of C28 carries over, reads are counted; a waiting caller has a read posted or outstanding (invariant for runs without early calls); nothing on the asynchronous way (invariant for callers without a duration); a measure for coming to rest |
| C111 | Model/TimerIds.lean: the ranges of timer IDs in the class hierarchies, as unsigned short; operations and call backs as in Model/Timer.lean. Spec/TimerIds.lean: what is left of a history without the other timers | arithmetic on ranges by induction over the chain of classes; the projection of the timer table to any set of IDs commutes with every step (non-interference by induction over runs) |
| C112 | Model/FileProgress.lean: the transfer of Model/FileTransfer.lean in either direction with the counter transmit_size, lost links and failing fwrite. Spec/FileProgress.lean: the number of bytes at their place | invariant counter + what is left = length (parts add up to the file); the invariant of C44; positions written by the links are pairwise different, so their number is a lower bound of the right bytes. Uploads are counted when read, failing writes are counted: witnesses; stdio buffering and partial fwrite are not modelled |
| C113 | Model/SyncTime.lean: the machine of Model/SyncRecv.lean with a clock; time passes only when no thread can run and no duration is over. Spec/SyncTime.lean: a stop watch that accepts or rejects what it sees | the stop watch refines the ideal hand-off of C28 (invariant); the bounds follow by induction over the events; time goes on by the measure of C28 |
| C114 | Model/SyncSendTime.lean: the machine of Model/TcpSend.lean with a clock and the callers that wait for their promises; time passes only when no caller can return. Spec/SyncSendTime.lean: a stop watch that follows one call | the stop watch accepts every execution (invariant); the bounds follow from what it accepts; answers are justified by C23_true_outcome_partial through projection to the sending side; time can always go on (induction on the calls that are due) |

No property was found to be inexpressible; where the runtime matters (weak memory, scheduler fairness, wall clock)
the property is stated for the logical part and labelled in section 5.

## 4. Findings (the code does not satisfy the property as stated)

Each finding is a proved witness in the file of its property (`Cnn_fails_...` or the name given), unless marked (read), which means it was found by reading and has no theorem.

* C08: a wrong prefix stalls the connection (`C08_wrong_prefix_stalls`, `C08_wrong_prefix_after_heartbeat_stalls`). (read) zero-length UDP datagrams are skipped.
* C11: the list overload of `fixed_length_packer` swaps its input with the output container, so what that container held before is lost from it; the send functions always give it an empty one (`C11_fixed_length_list_drops_output`). C12: a head may announce a wrong length (`C12_head_can_lie`).
* C13: self-assignment empties the buffer (`C13_self_assign_loses_content`), self-append reads freed memory after a reallocation (`C13_self_append_use_after_free`). (read) assignment loses the old content if the append throws.
* C15: inner NULs and the trailing NUL (`C15_append2_inner_nul`). (read) the constructor at ext.h:91, a missing return at base.h:554.
* C19: shrinking with a small `calc_shrink_size` leaves the send buffer unbounded (`C19_unbounded_without`).
* C22: after a failed write the sending flag is cleared without draining the queue (`C22_left_behind_after_error`).
* C22: without priority no message waits for ever, however much is sent (`C22_no_starvation`); with one message per write, a thread that goes on sending with priority keeps the others waiting for ever, under the same fairness (`C22_fails_priority`).
* C23: promises stay unresolved after shrinking, reset and close; with `ST_ASIO_DELAY_CLOSE` > 0 a promise may be set twice (`C23_fails_discarded`, `_closed`, `_delayed_close`).
* C24: a lost or stopped congestion timer leaves the sending flag set (`C24_stuck_without_timer`).
* C26: after a refused message, close and reconnect without reset nothing is dispatched again (`C26_fails_after_reconnect`). C27: each reconnect adds a read without a check of the buffer (`C27_fails_after_reconnects`).
* C28: `close()` notifies without the mutex (lost wake-up); a restart races on the received messages; SUCCESS may carry no message (`C28_fails_close`, `C28_fails_restart`, `C28_success_may_be_empty`).
* C29: `C29_fails_restart`, `_extern`, `_delay`, `_stopped`; closing inside `on_connect` spins for ever (`C29_close_inside_start`). With ST_ASIO_DELAY_CLOSE > 0 obsoleted() looks at a flag instead of the number of asynchronous calls, so a socket may be declared dead with calls pending (`C29_fails_obsolete_pending`); and start() does not clear `obsoleted_`, so it may be declared dead after it was started again (`C29_fails_obsolete_up`).
* C30: a connect that completes after a shutdown makes the link connected (`C30_fails_late_connect`).
* C31: `C31_fails_backpressure`. (read) `interval * max_absence` may overflow int.
* C32, C33: races with stopping and with a replaced call back; the 8 bit sequence number wraps (`C32_fails_race`, `C32_fails_wrap`, `C33_fails_stale`, `C33_fails_wrap`).
* C34, C36: `C34_fails_restore_race`, `C36_fails_init`. C37: `C37_fails_switch`.
* C38: `C38_fails_exception`, `C38_fails_early`. C55: `C55_fails_decrease`, `C55_decrease_always_ends`.
* C39: `C39_fails_auto_end`, `_finalize`, `_removed`, `_destroy`. (read) the call backs run with the mutex held.
* C40: `C40_fails_bind`, `_bind_close`, `_one_more`, `_idle`.
* C41: the SOCKS4 reply is read over the request (`C41_fails_reconnect`). C42: `C42_fails_stale`, `C42_unoffered`. C43: `C43_fails_atyp`, `C43_fails_signed`, `C43_coalesced`.
* C46: `C46_fails_while_sending`, `_overflow`, `_put_length`, `_put_offset`.
* C47: `C47_fails_restart`, `_create`, `_listen`, `_after_stop`.
* C48: a measured duration of 0 counts as unset, adding empty statistics zeroes the minimum, subtracting keeps minimum and maximum, concurrent packing loses measurements (`C48_fails_...`).
* C49: a message refused by ikcp_send is reported as sent (`C49_fails_error`); a lost congestion timer strands messages (`C49_fails_timer`). Closing releases the KCP control block, and a restart (the command of udp_test) does not create it again: the socket goes on as a plain UDP socket, unreliable and unordered, without a word (`C49_fails_restart`).
* C52: a priority send or shrinking can split a packed message. C53: a retry after TIMEOUT is accepted twice; `safe_send` of an unpackable message never ends (`C52_fails_...`, `C53_fails_...`).
* C50: a thread that saw the link ready before a reconnection can hand a message to the transport during the new handshake (`C50_early_send_race`); if a handshake succeeds after a shutdown, on_connect is called and the link is ready although the socket is closed (`C50_late_handshake`); a failed handshake switches reconnecting off (`C50_failed_is_final`).
* C51: a callback that registers another function for its own event while it runs can suppress the default handler although it was registered with pass_on (`C51_reregister`). An empty function without pass_on replaces the default handler by nothing, with the result true or 0 (`C51_empty`); for other results the default handler's result replaces that of the callback (`C51_value`).
* C57: after a refused message and a reconnection reception goes on without dispatching (`C57_fails_after_reconnect`); a refused message is offered again at once, without the handling interval, if another dispatch was already posted (`C57_retry_without_interval`). C58: `C58_fails_zero`.
* C60: one failed UDP receive ends reception for ever while the socket stays started (`C60_fails_after_error`, `C60_error_is_final`).
* C61: in connect mode a message is handed over with the peer's address although someone else sent it, if the peer address is changed after the start or a datagram arrives between bind and connect (`C61_fails_peer_changed`, `C61_fails_gap`); if connecting fails the socket works unconnected and hands over everybody's datagrams (`C61_fails_connect`); the address given to a send is ignored (`C61_ignores_address`).
* C62: without ST_ASIO_AVOID_AUTO_STOP_SERVICE sockets may stay unstarted (`C62_fails_after_auto_end`, `C62_fails_no_work`); sockets of a stopped service are started (`C62_starts_in_stopped_service`).
* C63: five ways in which stop_service() never returns (`C63_fails_late_add`, `_stopped_service`, `_del_socket`, `_removed_while_added`, `_restart_while_added`). (read) `finalize` clears the pool without its mutex (object_pool.h:114).
* C64: an array of buffers beyond the packer's limits is accepted (true) and dropped (`C64_fails_too_big`, for all such arrays); so is a message for which the send buffer finds no memory (`C64_fails_memory`); an empty std::string is sent as an empty frame, which the receiver takes for a heartbeat, an empty array or native message is not sent, all with the result true (`C64_empty`); with shrinking, a message that cannot be packed discards others' messages before it is refused (`C64_fails_shrinks_for_nothing`); sync_send_msg on a stopped io_context takes the caller's message away and returns NOT_APPLICABLE (`C64_sync_fails_stopped`); sync_safe_send_msg of a non-const message repeats with the emptied message and returns SUCCESS (`C64_sync_safe_fails`); of a const message with a time limit, it queues the message again after every TIMEOUT, so the peer gets it several times (`C64_fails_sync_safe_repeats`, for every number of attempts).
* C65 (not violations, but limits): broadcasts with `prior`, or with a shared_mutex as pool mutex, go out in different orders on different sockets (`C65_fails_prior`, `C65_fails_shared`); a socket whose buffer is full does not get a broadcast, and the caller is not told (`C65_refused_unnoticed`).
* C66: force_shutdown() (also disconnect() and, through uninit, stop_service()) for all sockets never returns if the io_context is stopped: on_close takes the pool's mutex, which the caller holds (`C66_fails_stopped`). safe_broadcast_msg waits for full send buffers with the mutex held; if meanwhile all service threads are in on_close, nothing is sent any more and it never returns (`C66_fails_threads`, one service thread and one broken link suffice); of a message that cannot be packed it never returns (`C66_fails_unpackable`).
* C67: a const shared_buffer is queued without being copied. If the program changes it afterwards, the frame's head and body no longer fit (`C67_fails_changed`); if it changes its size, the byte count of the send buffer becomes wrong, and if the message has grown, the count wraps around and the socket refuses all messages for ever with nothing to send (`C67_fails_accounting`); during writing it is a data race (`C67_fails_in_flight`). send_msg(m, m) with one variable by non-const reference sends a head for twice the length and the message once, with packer2 and with packer (`C67_fails_same_variable`).
* C68: packing an empty array succeeds with an empty message, whose raw_data_len is 2^64 minus the length of a head (`C68_fails_empty`). A message sent as an object goes out as two messages, head and body, so that raw_data in on_msg_send cuts off the first bytes of the body (`C68_fails_pieces`). fixed_length_packer inherits raw_data from packer although it writes no heads (`C68_fails_fixed_length`).
* C69: a websocket socket writes each piece of the send buffer as a websocket message and does not unpack on reception. With the default packer of ext/websocket.h, send_msg(std::string&) therefore arrives as two messages, the head and the body (`C69_fails_send_msg`), send_msg(pointer, length) arrives with its head (`C69_fails_head`), several strings arrive as several messages, also with send_native_msg (`C69_fails_two`), and heartbeats arrive as messages (`C69_fails_heartbeat`). An empty websocket message (from any peer, or from send_msg with an empty string) is taken for a read of 0 bytes: without NDEBUG the receiving process aborts, with NDEBUG the socket never reads again although the link stays up (`C69_fails_empty`).
* C70 (a limit): if the unpacker of an echoing server does not strip heads, each echo grows by a head, and a message without room for a second head is refused for ever, which stops everything behind it (`C70_fails_unstripped`).
* C71: a timer set again while an expiry of its former start waits for its handler calls back at once instead of after the new interval (`C71_fails_stale`); with the default system_timer, setting the system clock forward makes timers call back early (`C71_fails_clock`); with ST_ASIO_ALIGNED_TIMER, a timer of interval 0 whose call back takes a millisecond and returns true divides by zero (`C71_fails_zero`).
* C72: the header says that on_timer is called in sequence for the same timer. A call back that starts its own timer and runs for longer than the interval is invoked again on another thread while it runs (`C72_fails_restart`).
* C73: send_msg with one buffer and most other send functions queue the head and the body of a message as two pieces. If the link breaks between them (the write of the head fails, the body still waits), the next link begins with the body: the server takes the body's first bytes as a head and receives messages that were never sent (`C73_fails_torn`; the peer of a client can be made to receive content as messages).
* C74: on_send_error is also given messages that were completely taken by the kernel, if a later message of the same write or the completion itself failed: re-sending as the header suggests delivers them twice (`C74_fails_once`); and with messages in two pieces, putting back a body whose head was sent tears the message like C73 (`C74_fails_torn`).
* C75: pre_handle_msg stops at the first message that is longer than its local buffer of ST_ASIO_MSG_BUFFER_SIZE bytes (ikcp_recv returns -3 and keeps it) and nobody is told: the link is silent for good (`C75_stalls`, `C75_fails_big`). Such a message can come from direct_send_msg (which does not check the length), or from a peer built with a larger ST_ASIO_MSG_BUFFER_SIZE. An empty message, which KCP can transfer but this library never sends, ends the receiver in compose_msg's assertion (`C75_fails_empty`).
* C76: on_all_msg_send is decided by one look into the send buffer in send_handler after a successful write. If the buffer runs empty by other means it is never called: the last waiting message is popped (or discarded by shrink_send_buffer) after the look (`C76_fails_pop`), or, with UDP, the last message fails with an error (`C76_fails_udp_error`); a user who waits for on_all_msg_send to send more waits for good.
* C77: recv_handler of a UDP socket does not call do_recv_msg after an error (udp/socket.h:317-323; on Windows connection_refused and connection_reset are excepted). On Linux an ICMP 'port unreachable' that answers an earlier send is reported as connection_refused by the next receive of a connected socket: it ends reception for good, while the socket stays started and goes on sending (`C77_fails_error`; for every continuation: `C77_deaf_after_error`).
* C78: is_ready() of a UDP socket is is_bound, which is cleared by reset() only (udp/socket.h:65, 80-86). Messages sent between close and the next start (a single UDP service never calls reset) are therefore not kept, but given to the closed socket and fail (`C78_fails_closed`); and after close the first waiting message follows the aborted one and fails too (`C78_fails_waiting`).
* C79: handlers are bound to a plain `this`; only the pool keeps a socket alive for them. With ST_ASIO_DELAY_CLOSE > 0 obsoleted() does not look at pending handlers: a socket may be freed or reused under them (`C79_fails_delay_close`, `_delay_reuse`), even under the closing timer's own handler (`C79_fails_tail`). With the default ST_ASIO_DELAY_CLOSE == 0: handlers left in an io_context by service_pump::stop(), or begun after it ran out of work, outlive finalize() and are run by the next start_service() (`C79_fails_stop`, `_stopped_use`); sockets outside of the pool have no protection (`C79_fails_outside`); unique() and obsoleted() are two tests (`C79_fails_new_pointer`); a socket started again without reset() may be reused while it is started (`C79_fails_reuse_up`); a socket whose start() failed is never freed before the pool (`C79_fails_never_started`).
* C80: set_timer and change_timer_call_back destroy the function object they replace, even if it is running. boost::lambda objects read their members (the constants true and false) after the call: a graceful shutdown that the peer does not answer reads freed memory in every round but the last (`C80_fails_graceful_shutdown`, `_count`: n times in n + 1 rounds), and the timer that resumes receiving may be set again by another thread while its call back is still running (`C80_fails_check_recv`). In practice the freed bytes mostly still have their old value.
* C81: when a message completes a test, only that message is not sent back: what is still on its way of it is counted by the next test over the same link. If messages are split, more and more bytes go around test by test (`C81_fails_leftover`), and the printed speed is too high. Read, not modelled: main() waits for all links without looking at them, for ever if one is broken during a test; begin_time is started after the messages are sent, so a short test can stop it before it was started.
* C83: on_recv_error of my_client_socket removes the link's *name* from link_map. If the name was deleted and added again before the first link's receiving ended, the new link's entry is removed: it is connected but cannot be found any more (`C83_fails_again`). A link that could not be connected is never removed from link_map: messages sent by its name go nowhere and the name cannot be used again (`C83_fails_unconnected`).
* C84: concurrent_server tests size() in start_next_accept, so it stops one accept for each connection that comes while there are few links, over and over. After ST_ASIO_ASYNC_ACCEPT_NUM (1024) short connections one after the other it accepts nobody any more (`C84_fails_drained`). With connections counted, as config.h suggests, this cannot happen (`C84_counted`); but eleven accepts are kept, not ten as config.h says (`C84_exact`).
* C85: send_msg_concurrently divides by zero if there is no link (`C85_fails_none`), and writes outside of link_groups if a link is added between size() and do_something_to_all (`C85_fails_more`).
* C82, read: with clang and libstdc++, sgetn copies the array onto itself (memcpy with identical arguments).
* C86: a connection of file_client lost in the middle of a transfer leaves the link in its state for ever (reset() is not called for a reconnection, on_close does not touch it), so that is_end never becomes true and no later file is begun (`C86_fails_lost`); if the link was receiving, its file_unpacker has been reset, prepare_next_recv gives an empty buffer, and reading 0 bytes without an error runs into assert(false) of recv_handler. A command which gets to transmit_file between "100%" and the end of the last link finds that link busy and is dropped (`C86_fails_command`). A file which only some links can open makes all files behind it on the list fail (`C86_fails_some`).
* C87: handle_msg of echo_client adds to recv_bytes before it increases recv_index (echo_client.cpp:178-181). If the main thread finds the test finished in between and starts the next one, clear_status is executed before ++recv_index, recv_index starts at 1, and the client reports "check msg error" for messages that are right (`C87_fails_complaint`). Read, not modelled: TCP_RANDOM_SEND_MSG picks the last link only if rand() gives RAND_MAX; a link lost during a test makes it wait for ever; the result of safe_random_send_msg is ignored.
* C61: connected() of a UDP socket still says yes after the socket was closed, until reset() (`C61_fails_connected`).
* C88: with ST_ASIO_PASSIVE_RECV, if the user of a websocket does not ask for another message before shutting down (calls disconnect() in on_msg_handle, say), async_close completes, its handler stops the timer that guards the shutdown (websocket.h:114), and since no read is outstanding nobody notices that the link ended: the socket stays "gracefully shutting down" for ever, on_close is never called, a server keeps the object, a client does not reconnect (`C88_fails_passive`). A second disconnect() helps (`C88_twice`). The same happens in active mode after a message without content in a release build (`C88_fails_empty`, cf. C69).
* C89: non_lock_queue is safe in concurrent_server and concurrent_client, but only just: a second message sent from on_connect may be enqueued while the end of the first write takes messages out (`C89_fails_two_greetings`); so may a message from any other thread (`C89_fails_app`), and messages that on_msg leaves (`C89_fails_leaving`, `C89_fails_replies`). Without ST_ASIO_SYNC_DISPATCH the locks are needed even when there is never more than one message on its way (`C89_fails_pingpong`, which explains the remark in config.h). size_in_byte reads the byte count without the lock, so show_status (the command "status" of the examples) and handled_msg read it while another thread changes it, with lock_queue too (`C89_fails_status`, `C89_fails_count`).
* C90: with several service threads a socket may go deaf for ever. timer_handler marks the timer as cancelled if `prev_seq == ti.seq`; between that test and the write another thread can run the retry that the call back has posted, have it refused and set the timer again; the write then cancels the new timer, whose handler therefore does not call the call back: the refused message is never offered again, `dispatching` stays set and no later message is dispatched (`C90_fails_dispatch`). The same with TIMER_CHECK_RECV: receiving stays paused (`C90_fails_receive`). With one service thread neither can happen.
* C91: socket.h:230 says that no member of stat is accessed concurrently. pack_time_sum is, as soon as two threads send (`C91_fails_pack`) or heartbeats are on (`C91_fails_pack_beat`); handle_time_sum is, if on_msg leaves messages (`C91_fails_handle`); last_recv_time and last_send_time are read by the heartbeat timer while rw_strand writes them (`C91_fails_last`).
* C92: with ST_ASIO_REUSE_OBJECT create_object gives a socket that still has the settings of the previous one: addresses, connect mode, buffer limits, intervals, packer, unpacker and call backs; only the reconnect flag is reset (`C92_fails_default`). So add_socket(port, ip) of a TCP client may bind to a local address nobody asked for (`C92_fails_local`), add_socket() may go to another server than the default (`C92_fails_server`), and a UDP socket without a peer sends to the old one, connected to it (`C92_fails_peer`). The overloads of add_socket ignore the result of set_server_addr: with an ip that is not valid they succeed and connect to the default (with reuse: the previous) server (`C92_fails_bad_ip`); only the assert in set_addr, if compiled in, stops this.
* C94: when a link ends, the timer that would offer a refused message again is stopped (`stop_all_timer` in `close` and in every tick of the closing timer): the refused message and all received after it are lost, even though ST_ASIO_DELAY_CLOSE 0 waits for messages that were not refused (`C94_fails_refused`). With another ST_ASIO_DELAY_CLOSE on_msg_handle can be called after on_close (`C94_fails_delay`). graceful_shutdown does not wait for the send buffer: what send_msg accepted just before is lost (`C94_fails_graceful`).
* C97: basic_buffer(other, pos, len) (ext/ext.h:87-92) passes boost::next(other.size(), pos) instead of boost::next(other.data(), pos) to append. That is a number, so the overload append(size_t count, char c) is called: the new buffer has other.size() + pos characters, each with the code min(len, size - pos) (`C97_fails_part`, for every string and every position inside of it). With versions of Boost whose next() needs iterators the constructor does not compile.
* C97: the overloads of the constructor and of append for arrays of constant characters (ext/ext.h:83, 143), which limit the length to that of the array, are never chosen for a call with an array: the overload for const char* is not a template and its conversion ranks the same. basic_buffer("123", 10) reads behind the literal (`C97_fails_array`).
* C98: nothing removes the file of a unix domain socket, neither stop_listen (tcp/server.h:128) nor closing a UDP socket: a server that stopped listening, or ended, cannot listen at the same path again (`C98_fails_unix`).
* C98: start_listen sets `listening` before it calls listen() and does not take it back when that fails (tcp/server.h:95, 120): it returns false, but is_listening() says true and further calls fail until stop_listen is called (`C98_fails_listen`). After a failed bind the acceptor stays open, so after set_server_addr with another address family start_listen fails, too (`C98_fails_family`).
* C98: do_start of a UDP socket ignores invalid_argument from bind (it means that the user has bound the socket). It is also what Linux reports for an IPv4 address on an IPv6 socket: a socket that could not bind its IPv6 address and is given an IPv4 address starts, but is not bound, so nothing sent to its address reaches it (`C98_fails_deaf`).
* C99: two ends that answer each other with `return send_msg(msg);` in on_msg_handle (congestion control as the demos do it) block each other for ever once both send buffers, both receive buffers and both windows are full: each refuses messages until its send buffer drains, which needs the other end to read (`C99_fails_both`, four messages of one byte with the smallest buffers; with the default 1 MB buffers it takes correspondingly more messages). It cannot happen while the messages put into the link fit into one send buffer (`C99_circulates_partial`), nor if only one end answers (`C99_answers_delivered`).
* C100: a heartbeat is only sent if nothing was sent within the last interval, looked at once per interval, so up to two intervals pass between two writes of an end. With max_absence 2 a healthy link is therefore shut down by an unluckily timed message (C100_fails_absence), and with an interval of 1 second even the default max_absence of 3 does not suffice, because full seconds are compared (C100_fails_interval). ST_ASIO_ALWAYS_SEND_HEARTBEAT halves the gap.
* C101: the message about unparsed data goes through unified_out, whose buffer holds 2048 characters (ST_ASIO_UNIFIED_OUT_BUF_NUM); three are needed per byte, so of 700 or more unparsed bytes the last ones are not in the log, although ST_ASIO_MSG_BUFFER_SIZE is 4000 by default. non_copy_unpacker prints the body's length after a subtraction modulo 2^64, so a head that announces less than itself is logged with a huge length (or 0).
* C102: close() waits for the lock by trying every 10 ms. Nothing makes the others wait for it, so it may wait for ever while other threads start and close the socket again and again, although every thread makes progress (`C102_fails_close_waits`).
* C103: if start_listen is called between stop_listen and is_listening of an accept handler (another thread), the handler issues one accept too many (`C103_fails_restart`).
* C104: TCP do_send_msg reads the clock before it takes the messages, so a message that another thread adds in between counts with a negative delay (`C104_fails_negative`). In batch mode a handler that leaves messages over makes their earlier waiting count again at the next call, because begin_time is restarted only if the handler returns 0 (`C104_fails_leftover`; echo_server's handler takes ten at a time), and messages that arrive during a call and are taken by it are not counted (`C104_fails_arrival`). recv_idle_began survives a reconnect, so the time without a link counts as idle (`C104_fails_idle`).
* C105: short_client::send_msg registers the callback after add_socket has started the link. do_start waits 50 ms, which is all that keeps the connection from being established first; then the link reconnects after a loss (`C105_fails_late`), and the callback is written while on_connect may read it (`C105_fails_race`).
* C106: KCP may ask to be updated at once (a wait of 0 ms); with ST_ASIO_ALIGNED_TIMER and a call back that takes a millisecond the timer then divides by zero (`C106_fails_aligned`). create_kcpcb only checks started(): between close() and on_close it succeeds, and on_close releases the new control block, so that the socket runs without KCP after the next start (`C106_fails_lost`); as it does not take the mutex it may also release the old one while the update timer's call back works with it (`C106_fails_misuse`).
* C107: the clock counts seconds, so a talker whose async_send ends in the second after the check skips every other check and sends every two intervals; with an interval of 5 and the default max_absence of 3 one lost datagram leads to a false report (`C107_fails_loss`). With the default packer and unpacker of UDP sockets a heartbeat arrives at the peer's program as a message that nobody sent (`C107_fails_seen`).
* C108: a client whose local address and server address are of different IP versions (set_local_addr with a port only means IPv4) tries for ever and never connects (`C108_fails_family`). A local address set after start() and before the first attempt, 50 ms later, is not used (`C108_fails_late`). An invalid IP address ends a program with asserts (`C108_set`), in clients only: set_server_addr of servers has no assert.
* C109: concurrent_client assumes that exactly one message is on its way on a link. A message which is in the send buffer when the link is lost is sent over the next link as well as the one of on_connect, for good; then every echo restarts the time of the other one and an echo may take nearly twice as long as max_delay unnoticed (`C109_fails_two`). Links shut down for delay are never connected again because force_shutdown() is called without argument (part of `C109_truthful`).
* C110: with ST_ASIO_PASSIVE_RECV and ST_ASIO_SYNC_RECV, sync_recv_msg without a duration, called between start() of a client and its connection, never returns, whatever is sent, until the socket is closed: recv_msg does nothing because is_ready() is false (socket.h:165-166), and do_start relies on the user to read (socket.h:329-331) (`C110_fails_early`). With a duration, as in udp_test, the read of a call that timed out stays outstanding and its message goes to on_msg_handle if it comes before the next call, although nothing but sync_recv_msg is used (`C110_fails_mixed`).
* C111: stop_all_timer() is public and stops the timers of the library together with those of the user: called while a socket waits for its delayed close, on_close never comes (`C111_fails_stop_all`). Timer IDs are unsigned short, nothing checks that the ranges of derived classes fit (`C111_fails_many`).
* C112: an upload is counted when its bytes are read from the file, not when they are sent or stored. Each link reads its first chunk before sending it, so an upload of a file of at most 64 KB per link shows 100% and its speed at once; if the connection is lost then, the file of the server stays empty although the end was reported (`C112_fails_put`). A download counts bytes before it calls fwrite, so with a full disk 100% is reported as well (`C112_fails_write`).
* C113: a caller with a duration is released at its end even in the situation of `C28_fails_close` (`C113_rescue_demo`); one without waits for ever there (`C113_fails_forever`).
* C114: TIMEOUT does not withdraw the message: it may be sent afterwards (`C114_timeout_not_final`), a caller that repeats the call sends it twice. Without a duration a caller whose message is discarded waits for ever (`C114_fails_forever`).
* C06: fixed_length_packer also inherits pack_heartbeat, which succeeds; with a heartbeat interval the receiver's messages are shifted after the first heartbeat (`C06_fails_heartbeat`); the source says that heartbeats are not supported, so the property excludes them.

## 5. Trusted base

* Lean 4.33.0: the kernel, the elaborator for the statements, and the core library (no Mathlib module is imported). No `sorry`, `admit`, `native_decide`, `bv_decide`, no own axiom.
* Axioms: at most `propext`, `Classical.choice`, `Quot.sound`; `AXIOMS.md` lists them theorem by theorem.
* The reading of the C++ sources, as cited definition by definition in `Model/*.lean`. Nothing connects the model to the sources mechanically.
* The Boost contracts listed in section 2; per model, the contract of the operation used is in the comment of the action (async_read, async_write, async_send_to, strand, post, timer, shared_ptr use count, io_context run/stop/restart, beast's stream, ikcp).
* Sequential consistency. Fairness is assumed in `C22_no_starvation`, `C24_no_starvation`, `C26_no_starvation_partial`, `C40_for_ever_partial`, `C40_retries_partial`, `C56_no_starvation`, `C75_no_starvation_partial`, `C88_ends_partial`, `C88_lost`, `C88_twice` and `C93_no_starvation` only, where it is a hypothesis of the theorem (`Spec/Fair`: strong fairness of one to seventeen classes of actions in an infinite execution; for C24 also that congestion control does not refuse for ever, for C75 that KCP's backlog comes within the limit again and again); elsewhere progress is stated as existence of a continuation and decrease of a measure.

Which part of the code is modelled, by header (`Model/` file in brackets), and which part is not:

| header | modelled | not modelled |
|---|---|---|
| base.h | scope_atomic_lock [ScopeLock], send functions TCP_/UDP_(SYNC_)(SAFE_)SEND_MSG and broadcast macros [SendApi, SendBuffer, TcpSend, UdpSend, UdpAddr, Broadcast], statistic [Statistic, Heartbeat, StatRace], obj_with_begin_time [Delay], list of messages and splice [Queue, Packer], packer and unpacker interfaces [Packer, Reader, Unpacker], service states [Services, MultiService], object_buffer, unique_buffer, shared_buffer [Wrapped], log_formater [Log] | strings of endpoints, unified_out, condition_variable for old Boost versions |
| config.h | the macros that select behaviour are parameters: ST_ASIO_MSG_BUFFER_SIZE, head sizes, SYNC_RECV, SYNC_SEND, SYNC_DISPATCH, DISPATCH_BATCH_MSG, PASSIVE_RECV, HEARTBEAT_INTERVAL/MAX_ABSENCE, RECONNECT, AVOID_AUTO_STOP_SERVICE, ALIGNED_TIMER, DYNAMIC/REUSE/RESTORE object pool options, MAX_SEND_BUF/MAX_RECV_BUF, GRACEFUL_SHUTDOWN_MAX_DURATION, SHRINK_SEND_BUFFER, HUGE_MSG | FULL_STATISTIC's output format, tests of compiler and Boost versions |
| container.h | queue, lock_queue, non_lock_queue, list operations [Queue, SendApi], which threads use them at the same time [QueueRace] | dummy_lockable (does nothing) |
| executor.h, tracked_executor.h | async calls tracked by the use count [Lifecycle, Memory] | the io_context's queue order, except where a strand is modelled |
| timer.h | set/change/update/stop, handlers, sequence numbers [Timer, TimerIds, TimerRace, RetryRace] and the use in sockets; life of the function objects [TimerFunctor]; time, duration of call backs, ST_ASIO_ALIGNED_TIMER, steady and system clock [TimedTimer]; io_context_refs [IoContext] | |
| socket.h | send buffer, dispatching in all modes, link and life cycle, sync sends and receives, heartbeat, statistics [SendBuffer, TcpSend, SyncSendTime, UdpSend, SendApi, RecvDispatch, RecvModes, SyncRecv, PassiveSync, Lifecycle, Shutdown, Heartbeat, HeartbeatPair, Statistic, UdpAddr, Handshake, Reconnect] | show_info and show_status texts, move of the underlying socket object (`reset_next_layer` is one step) |
| object_pool.h | whole class [ObjectPool, Broadcast, MultiService], life of the objects [Memory] | the texts of list_all_status |
| service_pump.h, single_service_pump.h | whole pump: services, threads, io_context assignment, exceptions [Services, MultiService, IoContext, ThreadNum] | single_service_pump.h: constructors that only forward |
| socket_service.h, udp/socket_service.h, tcp/client.h | adding, starting, stopping sockets [MultiService, Broadcast], addresses given to add_socket [Settings] | parsing of ips |
| tcp/socket.h | reading, sending, shutdown, link status [Reader, TcpSend, RecvDispatch, RecvModes, SyncRecv, PassiveSync, Shutdown, Heartbeat, HeartbeatPair, Handshake, EndToEnd, Window, Protocols, ModePipe, LinkCut, Links, Notify] | |
| tcp/client_socket.h | connecting, reconnecting, shutting down, binding to a local address and its failure, the addresses of connections [Reconnect, ClientAddr, Shutdown, Handshake, Socks] | name resolution |
| tcp/server.h, tcp/server_socket.h | accept loop, adding to the pool, closing [Accept, ObjectPool, Broadcast, IoContext, Shutdown, Binding] | setting of socket options, name resolution |
| tcp/ssl/ssl.h, tcp/websocket/* | handshakes and shutdown [Handshake, LinkEnd]; parse_msg, async_read, async_write, batch_msg_send_size of websocket.h [Websocket] | the contents of SSL and websocket frames (OpenSSL, beast): beast is assumed to keep messages whole and in order |
| tcp/proxy/socks.h | SOCKS4 and SOCKS5 negotiations byte by byte [Socks] | |
| udp/socket.h | sending, receiving, addresses, connect mode, heartbeat [UdpSend, UdpLife, UdpAddr, Heartbeat, UdpHeartbeat, RecvModes, Simple, Notify, UdpPipe, Binding] | multicast options |
| udp/reliable_socket.h | the calls into ikcp and their order [ReliableUdp, UdpSend]; pre_handle_msg with ikcp_recv [KcpPipe]; the clock, the update timer, create_kcpcb and release_kcp [KcpClock] | ikcp itself: assumed to carry messages in order, unchanged, once, and to ask for waits; the Windows variant of itimeofday; a system clock that is set |
| ext/ext.h | basic_buffer with its constructors, string_buffer [BasicBuffer, BufferNew, Simple, Packer] | macros that choose default packers and unpackers |
| ext/packer.h, ext/unpacker.h | all packers and unpackers [Packer, PrefixSuffix, Flexible, Simple, Unpacker, FileTransfer, Wrapped, Dump] | |
| ext/callbacks.h | all call-back forwarding [Callbacks] | |
| ext/{tcp,udp,ssl,websocket,ssl_websocket,reliable_udp,client,server}.h, */alias.h, old_class_names.h | nothing to model: type aliases | |
| examples | file_server and file_client, their protocol and progress [FileTransfer, FileClient, FileProgress]; echo_server's on_msg_handle(msg) [Echo]; pingpong_client and pingpong_server, one link [Pingpong]; concurrent_client's links and their delay watch [DelayWatch]; socket_management's names [Names]; concurrent_server's accepting [PreAccept]; group_links of echo_client [GroupLinks]; file_client's list, links and timer [FileClient]; echo_client's tests against echo_server's on_msg_handle(can) [EchoTest]; echo_server's server for one client [OneClient]; client's short_client [ShortClient] | all other examples |

## 6. Work notes

* Three untracked drafts (`Spec/Statistic`, `Model/Statistic`, `Props/C48_Statistic`) were overwritten without being read when C48 was written. They were never committed, no copy was found, and the committed files are a fresh version.
