{"id": "C01", "title": "Default length-prefixed protocol: exact, prompt, ordered delivery", "statement": "If one peer sends any sequence of messages packed by ext::packer (interleaved with packed heartbeats) then, however TCP cuts the byte stream into reads, the peer's ext::unpacker hands out exactly those message bodies (or head+body when stripped(false)), in order, each one as soon as its last byte has been received, never reports an unpack error, and holds back no byte other than those of the incomplete trailing message.", "quantifier": "every buffer size and head width allowed by the configuration macros, every message sequence within the size limit, every heartbeat placement, every segmentation of the stream, both stripped modes", "why_tests_cant": "the number of segmentations is exponential in the stream length; tests sample a few", "anchors": ["include/ext/unpacker.h:unpacker::parse_msg", "include/ext/unpacker.h:unpacker::completion_condition", "include/ext/packer.h:packer::pack_msg", "include/tcp/socket.h:reader_writer::async_read"]}
{"id": "C02", "title": "Default protocol: malformed length is always detected and never swallows good messages", "statement": "For an arbitrary (hostile) byte stream and arbitrary segmentation, the messages handed out by ext::unpacker before the first reported error are exactly the well-formed frames that precede the first head whose length is smaller than the head or larger than ST_ASIO_MSG_BUFFER_SIZE, and once such a head has been received completely the unpack error is reported; an error is never reported without such a head.", "quantifier": "every byte stream and every segmentation", "why_tests_cant": "hostile inputs and their segmentations form an unbounded set", "anchors": ["include/ext/unpacker.h:unpacker::parse_msg", "include/ext/unpacker.h:unpacker::completion_condition", "include/tcp/socket.h:socket_base::recv_handler"]}
{"id": "C03", "title": "Default unpacker: memory safety and progress", "statement": "For an arbitrary byte stream and segmentation, ext::unpacker never reads or writes outside its fixed buffer, none of its asserts fires, the buffer it offers for the next read is never empty, and a read never completes with zero bytes while there is no error (which would stop reception).", "quantifier": "every byte stream, every segmentation, any number of reads, including after an error and reset()", "why_tests_cant": "absence of out-of-bounds access for all inputs is not observable by finitely many runs", "anchors": ["include/ext/unpacker.h:unpacker", "include/tcp/socket.h:socket_base::recv_handler", "include/tcp/socket.h:reader_writer::async_read"]}
{"id": "C04", "title": "Flexible unpacker: same wire behaviour as the default one, for small and big messages", "statement": "ext::flexible_unpacker delivers exactly the packed bodies in order for every segmentation, also when some messages are larger than its fixed 4000 byte buffer, in both stripped modes, without out-of-bounds access or spurious error.", "quantifier": "every message sequence within ST_ASIO_MSG_BUFFER_SIZE, every mixture of small and big messages and heartbeats, every segmentation", "why_tests_cant": "the switch between the fixed and the dynamic buffer can happen at any byte offset", "anchors": ["include/ext/unpacker.h:flexible_unpacker::parse_msg", "include/ext/unpacker.h:flexible_unpacker::extend_buffer", "include/ext/unpacker.h:flexible_unpacker::completion_condition"]}
{"id": "C05", "title": "Non-copy unpacker: exact ordered delivery", "statement": "ext::non_copy_unpacker delivers exactly the packed bodies, in order, for every segmentation, skips heartbeats, rejects every head smaller than the head length or larger than the limit, and never offers an empty read buffer.", "quantifier": "every message sequence, every heartbeat placement, every segmentation, every malformed head", "why_tests_cant": "unbounded streams and segmentations; unsigned wrap-around of (head - head_len) must be right for every value", "anchors": ["include/ext/unpacker.h:non_copy_unpacker"]}
{"id": "C06", "title": "Fixed-length protocol: exact ordered delivery", "statement": "With fixed_length_packer/fixed_length_unpacker and messages of the configured length, every segmentation yields exactly the sent messages in order, one per read, with no error.", "quantifier": "every fixed length, every message sequence, every segmentation", "why_tests_cant": "unbounded streams and segmentations", "anchors": ["include/ext/unpacker.h:fixed_length_unpacker", "include/ext/packer.h:fixed_length_packer"]}
{"id": "C07", "title": "Prefix/suffix protocol: exact, prompt, ordered delivery", "statement": "For messages packed by prefix_suffix_packer whose body does not make the suffix appear early, every segmentation makes prefix_suffix_unpacker hand out exactly the sent bodies in order, each as soon as its last byte arrived; heartbeats (prefix+suffix) are never handed out as messages.", "quantifier": "every prefix, every non-empty suffix, every message sequence free of an early suffix, every heartbeat placement, every segmentation", "why_tests_cant": "the suffix can be cut at every offset by the segmentation; search restarts at every read", "anchors": ["include/ext/unpacker.h:prefix_suffix_unpacker::peek_msg", "include/ext/unpacker.h:prefix_suffix_unpacker::parse_msg", "include/ext/unpacker.h:prefix_suffix_unpacker::memmem", "include/ext/packer.h:prefix_suffix_packer::pack_msg"]}
{"id": "C08", "title": "Prefix/suffix protocol: a wrong prefix is reported as an unpack error", "statement": "Whenever the bytes following the last good message do not start with the configured prefix, the unpack error callback is invoked once enough bytes have arrived, and reception does not stall.", "quantifier": "every byte stream and segmentation", "why_tests_cant": "depends on where the wrong byte falls relative to read boundaries", "anchors": ["include/ext/unpacker.h:prefix_suffix_unpacker::parse_msg", "include/ext/unpacker.h:prefix_suffix_unpacker::peek_msg", "include/tcp/socket.h:socket_base::recv_handler"]}
{"id": "C09", "title": "Stream and UDP unpackers are transparent", "statement": "stream_unpacker hands out, concatenated, exactly the bytes received; udp_unpacker hands out exactly one message per datagram with exactly its bytes; no byte is lost, duplicated or re-ordered.", "quantifier": "every byte stream, every segmentation, every datagram sequence", "why_tests_cant": "unbounded streams and segmentations", "anchors": ["include/ext/unpacker.h:stream_unpacker", "include/ext/unpacker.h:udp_unpacker"]}
{"id": "C10", "title": "Packing succeeds exactly within the limit and yields head followed by the pieces", "statement": "packer::pack_msg over an array of buffers succeeds exactly when head plus all non-null pieces fit ST_ASIO_MSG_BUFFER_SIZE and the head's range; on success the message is the big-endian total length followed by the non-null pieces in order (empty when there is nothing to pack); on failure the message is empty. Sizes that overflow size_t are refused, never mis-packed.", "quantifier": "every list of pieces (null or not) with arbitrary 64 bit lengths, native or not, every configuration", "why_tests_cant": "overflow needs lengths no test allocates", "anchors": ["include/ext/packer.h:packer_helper::msg_size_check", "include/ext/packer.h:packer::pack_msg"]}
{"id": "C11", "title": "Zero-copy packing is byte-equivalent to copying packing", "statement": "The container versions of pack_msg (one, two or a list of messages) put on the wire the same bytes as packing the concatenation in one go, move the inputs out without copying, and leave both containers untouched when they refuse.", "quantifier": "every list of messages", "why_tests_cant": "unbounded inputs", "anchors": ["include/ext/packer.h:packer::pack_msg", "include/ext/packer.h:packer2::pack_msg", "include/ext/packer.h:prefix_suffix_packer::pack_msg"]}
{"id": "C12", "title": "Head never lies about the length", "statement": "No pack_msg overload ever emits a frame whose head differs from the real frame length.", "quantifier": "every configuration (head width, ST_ASIO_MSG_BUFFER_SIZE) and every message size", "why_tests_cant": "needs buffer sizes above 64K with 16 bit heads, a configuration nobody tests", "anchors": ["include/ext/packer.h:packer_helper::pack_header", "include/ext/packer.h:packer::pack_msg", "include/ext/ext.h"]}
{"id": "C13", "title": "basic_buffer behaves like a byte string", "statement": "Through any sequence of append, erase, assign, resize (shrinking), clear, swap and reserve, the content of a basic_buffer equals that of an ideal byte list subjected to the same operations; out-of-range erases and over-long appends throw and leave the content unchanged.", "quantifier": "every operation sequence and every argument", "why_tests_cant": "unbounded operation sequences", "anchors": ["include/ext/ext.h:basic_buffer"]}
{"id": "C14", "title": "basic_buffer capacity discipline", "statement": "size() never exceeds capacity(), capacity() never exceeds 4294967295 and is otherwise a multiple of 16, no append or erase touches memory outside the allocated block, and no arithmetic in reserve wraps around.", "quantifier": "every operation sequence and every argument, including sizes around 2^32", "why_tests_cant": "needs 4 GiB buffers to hit the boundary", "anchors": ["include/ext/ext.h:basic_buffer::reserve", "include/ext/ext.h:basic_buffer::check_length"]}
{"id": "C15", "title": "basic_buffer::append2 behaves as documented", "statement": "append2(const char*) deletes a trailing NUL of the buffer before appending the string with its NUL, so chained append2 calls contain no inner NULs (documented example ends with length 13).", "quantifier": "every buffer content and every C string", "why_tests_cant": "documented for all contents", "anchors": ["include/ext/ext.h:basic_buffer::append2"]}
{"id": "C16", "title": "Message queue: FIFO with front insertion and exact byte count", "statement": "Any interleaving of queue operations (enqueue, enqueue_front, move_items_in, move_items_in_front, try_dequeue, move_items_out by count or by bytes, swap, clear) behaves like an ideal list, and size_in_byte() always equals the sum of the sizes of the queued messages.", "quantifier": "every operation sequence from any number of threads (operations are atomic under the queue's lock), every message size", "why_tests_cant": "unbounded histories", "anchors": ["include/container.h:queue"]}
{"id": "C17", "title": "Batch removal takes the shortest sufficient prefix", "statement": "move_items_out(bytes) moves, in order, the shortest non-empty prefix of the queue whose size reaches the requested number of bytes (everything if the queue is smaller; one item when 0 is asked for); move_items_out(count) moves exactly min(count, size) items; nothing is lost or duplicated.", "quantifier": "every queue content and every limit", "why_tests_cant": "unbounded contents", "anchors": ["include/container.h:queue::move_items_out_"]}
{"id": "C18", "title": "Send buffer limit", "statement": "A send without can_overflow is refused exactly when the pending bytes have reached the configured send buffer size; when accepted, pending bytes grow exactly by the packed size; consequently pending bytes never exceed limit - 1 + size of the largest accepted message as long as nobody overrides the limit (single sender).", "quantifier": "every sequence of sends and completed writes, every limit, every message size", "why_tests_cant": "unbounded histories", "anchors": ["include/socket.h:direct_send_msg", "include/socket.h:is_send_buffer_available", "include/socket.h:shrink_send_buffer", "include/base.h:TCP_SEND_MSG"]}
{"id": "C19", "title": "Shrinking the send buffer discards a minimal oldest prefix and reports it", "statement": "With ST_ASIO_SHRINK_SEND_BUFFER, a refused-by-size send discards the shortest prefix of the oldest pending messages reaching calc_shrink_size() bytes, hands exactly those to on_msg_discard, keeps the rest in order with exact byte accounting, and refuses (discarding nothing) exactly when calc_shrink_size returns 0.", "quantifier": "every pending queue, every limit, every calc_shrink_size result", "why_tests_cant": "unbounded queue contents", "anchors": ["include/socket.h:shrink_send_buffer", "include/container.h:queue::move_items_out_"]}
{"id": "C20", "title": "TCP sending: no loss, no duplication, no reordering", "statement": "While the link stays up, the sequence of messages written to the TCP stream is, at any time, a prefix of the sequence of accepted messages; every accepted message is written exactly once, in acceptance order (priority messages may overtake only messages not yet handed to the kernel); messages reported through on_send_error are exactly those of the failed write.", "quantifier": "every number of sending threads, every interleaving of sends with write completions, every batching limit", "why_tests_cant": "interleavings are unbounded", "anchors": ["include/tcp/socket.h:do_send_msg", "include/tcp/socket.h:send_handler", "include/socket.h:do_direct_send_msg", "include/socket.h:send_msg"]}
{"id": "C21", "title": "TCP sending: at most one outstanding write", "statement": "At no time are two asynchronous writes outstanding on one socket.", "quantifier": "every interleaving of sender threads, strand execution and completions", "why_tests_cant": "race windows", "anchors": ["include/tcp/socket.h:do_send_msg", "include/socket.h:test_and_set_sending", "include/socket.h:clear_sending"]}
{"id": "C22", "title": "TCP sending: no lost wake-up", "statement": "While the link is ready and no write has failed, whenever all threads and strands are idle and no write is outstanding, the send buffer is empty: a message is never left behind waiting for another send call.", "quantifier": "every interleaving of sender threads, strand execution and write completions, at instruction granularity of the flag and queue accesses", "why_tests_cant": "race windows of a few instructions", "anchors": ["include/tcp/socket.h:do_send_msg", "include/socket.h:send_msg", "include/socket.h:do_direct_send_msg"]}
{"id": "C23", "title": "Synchronous send returns the true outcome exactly once", "statement": "A sync send reports SUCCESS only if its message was completely written, NOT_APPLICABLE only if it was not; its promise is never satisfied twice; and every message leaving the send buffer (sent, failed, popped, discarded or cleared) resolves its promise so that the caller does not block forever.", "quantifier": "every interleaving of sync sends with writes, failures, pops, shrinks, close and reset", "why_tests_cant": "interleavings are unbounded", "anchors": ["include/socket.h:do_direct_sync_send_msg", "include/tcp/socket.h:send_handler", "include/tcp/socket.h:on_close", "include/base.h:POP_ALL_PENDING_MSG_NOTIFY", "include/socket.h:shrink_send_buffer"]}
{"id": "C24", "title": "UDP sending: one datagram per message, in order, resumable", "statement": "UDP messages are sent one datagram each in acceptance order with at most one outstanding send; a suspended (congestion-controlled) sender continues with the same message order after resume_sending, and no message is lost; a per-message send error affects only that message.", "quantifier": "every interleaving of sends, completions, errors and congestion decisions", "why_tests_cant": "interleavings are unbounded", "anchors": ["include/udp/socket.h:do_send_msg", "include/udp/socket.h:send_handler", "include/udp/socket.h:resume_sending"]}
{"id": "C25", "title": "Receive dispatch: in order, one at a time, exactly once, with retry", "statement": "Received messages are passed to on_msg_handle in the order received, never two at the same time, each repeatedly until it is accepted (returns true) and never again afterwards.", "quantifier": "every message arrival pattern, every accept/refuse pattern, every interleaving of reception, strand posts and the retry timer", "why_tests_cant": "interleavings are unbounded", "anchors": ["include/socket.h:do_dispatch_msg", "include/socket.h:dispatch_msg", "include/socket.h:handle_msg", "include/socket.h:timer_handler"]}
{"id": "C26", "title": "Receive dispatch: nothing is left behind", "statement": "While the socket stays up, whenever nothing is running or scheduled any more, no received message is waiting undispatched; this also holds after a client socket reconnects.", "quantifier": "every interleaving of reception, dispatch, retry timer, close and reconnect", "why_tests_cant": "race windows", "anchors": ["include/socket.h:dispatch_msg", "include/socket.h:do_dispatch_msg", "include/socket.h:close"]}
{"id": "C27", "title": "Receive back-pressure", "statement": "Reception stops after the read during which pending undispatched bytes reach the receive buffer limit and resumes by itself once they are below it again, so pending bytes never exceed limit - 1 + bytes delivered by one read, and reception is never stopped for good.", "quantifier": "every arrival and consumption pattern, every limit", "why_tests_cant": "unbounded histories and timing", "anchors": ["include/socket.h:handled_msg", "include/socket.h:check_receiving", "include/tcp/socket.h:recv_handler"]}
{"id": "C28", "title": "Synchronous receive hand-off", "statement": "sync_recv_msg returns each received batch to exactly one caller or to the asynchronous path, never both and never lost; a second concurrent caller gets DUPLICATE; TIMEOUT is returned only if nothing was handed over; closing the socket releases every waiter; no deadlock between the receiving strand and the callers.", "quantifier": "every interleaving of callers, receptions, errors, timeouts and close", "why_tests_cant": "interleavings are unbounded", "anchors": ["include/socket.h:sync_recv_msg", "include/socket.h:sync_recv_waiting", "include/socket.h:handle_msg", "include/socket.h:handle_error"]}
{"id": "C29", "title": "Close happens once and on_close comes after the last asynchronous call", "statement": "Per start, however many threads request a shutdown, exactly one close succeeds; on_close is called exactly once for it, only when no asynchronous call of the socket is pending or running other than the closing timer itself; the socket becomes obsoleted only after on_close, and cannot be restarted in between.", "quantifier": "every interleaving of shutdown requests, pending asynchronous operations and timers", "why_tests_cant": "interleavings are unbounded", "anchors": ["include/socket.h:close", "include/socket.h:timer_handler", "include/socket.h:start", "include/tracked_executor.h:is_last_async_call"]}
{"id": "C30", "title": "TCP link status discipline and bounded graceful shutdown", "statement": "The link status only moves along connected -> (gracefully shutting down ->) force shutting down -> broken and back to connected on start; a graceful shutdown ends (peer closed or forced) after at most ST_ASIO_GRACEFUL_SHUTDOWN_MAX_DURATION*100 timer ticks; a graceful request never interrupts a shutdown in progress and a forced one always overrides a graceful one.", "quantifier": "every sequence of shutdown requests, peer closes, errors and timer ticks", "why_tests_cant": "unbounded histories", "anchors": ["include/tcp/socket.h:_force_shutdown", "include/tcp/socket.h:_graceful_shutdown", "include/tcp/socket.h:shutdown", "include/tcp/socket.h:shutdown_handler"]}
{"id": "C31", "title": "Heartbeat decision", "statement": "check_heartbeat reports a timeout exactly when the link is ready, something started reception, and nothing has been received for at least interval*max_absence seconds; a heartbeat is sent exactly when the link is ready, has not timed out, nothing was sent for interval seconds and no send is in progress; a peer that sends anything at least every interval*max_absence - 1 seconds is never declared dead.", "quantifier": "every timing of receptions, sends and checks", "why_tests_cant": "unbounded timing histories", "anchors": ["include/socket.h:check_heartbeat", "include/socket.h:start_heartbeat"]}
{"id": "C32", "title": "Timers: at most one timer per id, callbacks obey stop", "statement": "After stop_timer (or stop_all_timer) returns and until the timer is started again, its callback is never invoked, even if an expiry was already queued; there is never more than one table entry per timer id; a timer whose callback returns true keeps running, one that returns false stops, restarting inside the callback is honoured whatever the callback returns.", "quantifier": "every sequence of set/start/stop/change operations interleaved with expiries and cancelled waits", "why_tests_cant": "queued expiries race with stop calls", "anchors": ["include/timer.h:timer_handler", "include/timer.h:start_timer", "include/timer.h:stop_timer", "include/timer.h:create_or_update_timer"]}
{"id": "C33", "title": "Timers: restart discards the previous schedule", "statement": "When a timer is stopped and started again (or re-set), the callback is invoked for the new schedule only: an expiry of the earlier schedule that was still queued does not invoke it.", "quantifier": "every interleaving of restart and queued expiries", "why_tests_cant": "needs an expiry queued in the window before the restart", "anchors": ["include/timer.h:timer_handler", "include/timer.h:start_timer"]}
{"id": "C34", "title": "Object pool: unique ids, bounded size, faithful lookup", "statement": "Objects in the pool have pairwise different ids, find(id) returns exactly the object added under this id, the number of pooled objects never exceeds max_size() through add_object, and an object is in the pool or in the invalid list but never in both.", "quantifier": "every sequence of create, add, delete, change id, restore, reuse and free operations", "why_tests_cant": "unbounded histories", "anchors": ["include/object_pool.h:add_object", "include/object_pool.h:del_object", "include/object_pool.h:init_object_id", "include/object_pool.h:find"]}
{"id": "C35", "title": "Object pool: reuse and free only obsoleted, unreferenced objects", "statement": "An object is handed out for reuse or freed only after it was deleted from the pool, is not referenced by anyone else and declares itself obsoleted; a reused object gets a fresh id never given to another object by the pool.", "quantifier": "every sequence of operations and reference-count histories", "why_tests_cant": "unbounded histories", "anchors": ["include/object_pool.h:reuse_object", "include/object_pool.h:invalid_object_pop", "include/object_pool.h:free_object", "include/object_pool.h:clear_obsoleted_object"]}
{"id": "C36", "title": "Object pool: deleting an object removes that very object", "statement": "del_object(object) removes the given object from the pool and no other.", "quantifier": "every history, including restored and changed ids", "why_tests_cant": "needs id collisions between pooled and unpooled objects", "anchors": ["include/object_pool.h:del_object"]}
{"id": "C37", "title": "service_pump: least-loaded io_context assignment and exact reference accounting", "statement": "assign_io_context picks an io_context with the minimal number of references; references equal assigned minus returned at all times and sum up over all io_contexts; with single io_context nothing is counted.", "quantifier": "every sequence of assign/return calls over any number of io_contexts", "why_tests_cant": "unbounded histories", "anchors": ["include/service_pump.h:assign_io_context", "include/service_pump.h:return_io_context"]}
{"id": "C38", "title": "service_pump: thread removal never removes the last thread", "statement": "With ST_ASIO_DECREASE_THREAD_AT_RUNTIME, however many threads are asked to leave, at least one service thread per pump keeps running until stop, and exactly the requested number leaves otherwise.", "quantifier": "every number of threads and requests and every interleaving", "why_tests_cant": "race between exiting threads", "anchors": ["include/service_pump.h:run", "include/service_pump.h:del_service_thread"]}
{"id": "C39", "title": "service_pump: service lifecycle", "statement": "start_service initialises a service at most once until it is stopped, stop_service uninitialises exactly those that were started, and services are started in order of registration and stopped likewise.", "quantifier": "every sequence of start/stop/add/remove", "why_tests_cant": "unbounded histories", "anchors": ["include/service_pump.h:i_service", "include/service_pump.h:do_service", "include/service_pump.h:stop_service"]}
{"id": "C40", "title": "Client reconnect policy", "statement": "After an unexpected disconnect a client socket with reconnect enabled tries again until it connects, is told not to, prepare_reconnect returns a negative value or the pump stops; with reconnect disabled it never tries again; explicit force_shutdown/graceful_shutdown(reconnect) override the policy.", "quantifier": "every sequence of connect results, disconnects, user requests and prepare_reconnect answers", "why_tests_cant": "unbounded histories", "anchors": ["include/tcp/client_socket.h:connect_handler", "include/tcp/client_socket.h:prepare_next_reconnect", "include/tcp/client_socket.h:after_close", "include/tcp/client_socket.h:force_shutdown"]}
{"id": "C41", "title": "SOCKS4 request and reply", "statement": "The SOCKS4 client sends exactly VN=4, CD=1, DSTPORT, DSTIP, USERID NUL-terminated for the configured IPv4 target, never writes outside its buffer, and proceeds to the application protocol exactly when the 8 byte reply carries code 90.", "quantifier": "every IPv4 target and every reply", "why_tests_cant": "2^48 targets, arbitrary replies", "anchors": ["include/tcp/proxy/socks.h:socks4"]}
{"id": "C42", "title": "SOCKS5 messages follow RFC 1928/1929", "statement": "Greeting, username/password sub-negotiation and CONNECT request are encoded as in RFC 1928/1929 for every target (IPv4, IPv6, domain) and every credential pair accepted by the setters, and never overflow the 64 byte buffer; after set_target_addr the request addresses the most recently configured target.", "quantifier": "every target and credential sequence", "why_tests_cant": "unbounded inputs", "anchors": ["include/tcp/proxy/socks.h:socks5::set_target_addr", "include/tcp/proxy/socks.h:socks5::set_auth", "include/tcp/proxy/socks.h:socks5::send_request"]}
{"id": "C43", "title": "SOCKS5 reply handling is segmentation independent and safe", "statement": "However the proxy's replies are segmented, and whatever bytes it sends, the client either reaches the application protocol after a complete, successful CONNECT reply, or reports failure; it never reads past its buffer and never hands the proxy's bytes to the application.", "quantifier": "every byte stream from the proxy and every segmentation", "why_tests_cant": "hostile proxies, unbounded segmentations", "anchors": ["include/tcp/proxy/socks.h:socks5::recv_handler"]}
{"id": "C44", "title": "File transfer: the parts partition the file", "statement": "With any number of links, the byte ranges requested by the file_client links are pairwise disjoint and cover the file exactly; the received bytes written at their offsets reproduce the file.", "quantifier": "every file size and every number of links", "why_tests_cant": "unbounded sizes", "anchors": ["file_client/file_client.h:handle_msg"]}
{"id": "C45", "title": "File transfer: exact byte counts", "statement": "The file reader side sends exactly the requested number of bytes in chunks, and the file writer side consumes exactly that many bytes of the stream before returning to the control protocol, for every segmentation.", "quantifier": "every length and every segmentation", "why_tests_cant": "unbounded sizes and segmentations", "anchors": ["file_common/file_buffer.h:file_buffer", "file_common/unpacker.h:file_unpacker"]}
{"id": "C46", "title": "File server request validation", "statement": "The file server serves a range only if a file is open, the request has exactly the right size and the range lies inside the file; anything else is answered or ignored without touching memory or file out of range.", "quantifier": "every request bytes and every file size", "why_tests_cant": "2^128 offset/length pairs", "anchors": ["file_server/file_socket.cpp:handle_msg"]}
{"id": "C47", "title": "TCP server accept loop", "statement": "While listening, the configured number of outstanding accepts is kept: each successful accept starts exactly one new accept, a failed one does so exactly when on_accept_error says so; accepted sockets beyond max_size are refused; after stop_listen no new accept is issued.", "quantifier": "every sequence of accept results, stop/start listen calls", "why_tests_cant": "unbounded histories", "anchors": ["include/tcp/server.h:accept_handler", "include/tcp/server.h:start_listen", "include/tcp/server.h:stop_listen", "include/tcp/server.h:add_socket"]}
{"id": "C48", "title": "Statistics are exact sums", "statement": "Message and byte counters equal the number and size of messages sent/received since reset; accumulated durations equal the sum of measured durations with correct minimum, maximum and count.", "quantifier": "every sequence of events", "why_tests_cant": "unbounded histories", "anchors": ["include/base.h:statistic", "include/tcp/socket.h:send_handler", "include/socket.h:handle_msg"]}
{"id": "C49", "title": "Reliable UDP (KCP): congestion control neither loses nor stalls", "statement": "With the KCP socket, messages are handed to KCP in order, sending pauses when the KCP backlog exceeds the limit and resumes by itself when it drains, and no pending message is stranded.", "quantifier": "every sequence of sends, KCP updates and receptions", "why_tests_cant": "unbounded histories", "anchors": ["include/udp/reliable_socket.h:check_send_cc", "include/udp/reliable_socket.h:timer_handler", "include/udp/reliable_socket.h:do_send_msg"]}
{"id": "C50", "title": "Secure/websocket links: no user traffic before the handshake completed", "statement": "For SSL and websocket sockets the link never becomes ready and on_connect is never called before the handshake succeeded, and a failed handshake leads to shutdown, never to a connected link.", "quantifier": "every sequence of handshake results, user sends and shutdown requests", "why_tests_cant": "unbounded histories", "anchors": ["include/tcp/ssl/ssl.h", "include/tcp/websocket/websocket.h"]}
{"id": "C51", "title": "Callback registration composes as configured", "statement": "A registered callback replaces the default handler unless pass_on is true, in which case both run (callback first); for boolean events the default handler runs only if the callback agreed and the result is the conjunction.", "quantifier": "every event, every callback result and both pass_on settings", "why_tests_cant": "combination of all macros and events", "anchors": ["include/ext/callbacks.h"]}
{"id": "C52", "title": "Pieces of a packed message stay together on the stream", "statement": "A packed message that was accepted by a TCP socket appears on the stream contiguously: no bytes of another message are inserted into it and it is never sent in part only (unless the link breaks).", "quantifier": "every interleaving of sends (normal and priority), discards and write completions, every packer output (one or several pieces)", "why_tests_cant": "depends on batch boundaries and on the moment a priority send or a discard happens", "anchors": ["include/socket.h:do_direct_send_msg", "include/tcp/socket.h:do_send_msg", "include/socket.h:shrink_send_buffer", "include/ext/packer.h:pack_msg"]}
{"id": "C53", "title": "Safe sends accept the message exactly once", "statement": "safe_send_msg (and its native, list and array variants) returns true only if its message entered the send buffer exactly once and false only if it never did and the link was not ready; sync_safe_send_msg returns SUCCESS only if its message was accepted exactly once; a safe send eventually returns when the buffer has room.", "quantifier": "every sequence of buffer states and readiness met by the retry loop, every limit, every message", "why_tests_cant": "depends on the unbounded sequence of states other threads leave between the attempts", "anchors": ["include/base.h:TCP_SAFE_SEND_MSG", "include/base.h:TCP_SYNC_SAFE_SEND_MSG", "include/base.h:SAFE_SEND_MSG_CHECK"]}
{"id": "C54", "title": "service_pump: every io_context is served and threads are balanced", "statement": "Starting the pump with at least as many threads as io_contexts gives every io_context at least one thread; exactly the requested number of threads is created; threads are always distributed so that two io_contexts differ by one thread at most if they did before.", "quantifier": "every number of io_contexts and threads and every earlier distribution", "why_tests_cant": "unbounded numbers", "anchors": ["include/service_pump.h:assign_thread", "include/service_pump.h:add_service_thread", "include/service_pump.h:do_service"]}
{"id": "C55", "title": "service_pump: exceptions and service threads", "statement": "If a handler throws and on_exception answers 'continue', the service thread goes on running handlers; it leaves only when its io_context has stopped, on_exception answers 'stop' or it was asked to leave.", "quantifier": "every sequence of outcomes of run/run_one", "why_tests_cant": "unbounded histories", "anchors": ["include/service_pump.h:run", "include/service_pump.h:on_exception"]}
{"id": "C56", "title": "From send_msg to on_msg_handle", "statement": "On a healthy link, whatever send functions (array, string, two strings, container, heartbeat) are called by whatever threads, the receiving application's on_msg_handle gets every non-empty message whose send call put it into the send buffer exactly once, with unchanged content, in the order of acceptance; at any moment the messages accepted by on_msg_handle are a prefix of those sent. Nothing gets stuck: without further calls the library delivers everything within a bounded number of steps and then comes to rest, and it can only rest when everything was delivered.", "quantifier": "every sequence of send calls by any number of threads, every interleaving of both sides' threads and strands, every segmentation of the stream by the kernels and the network, every refusal pattern of on_msg_handle, every receive buffer limit, every batch size", "why_tests_cant": "The unit of interest is the composition of packer, send queue, strand, kernel, network segmentation, unpacker, receive buffer, back-pressure and dispatcher; tests see a few schedules and segmentations only.", "anchors": ["include/base.h: TCP_SEND_MSG", "include/socket.h: do_direct_send_msg handle_msg do_dispatch_msg", "include/tcp/socket.h: do_send_msg send_handler do_recv_msg recv_handler", "include/ext/packer.h: packer", "include/ext/unpacker.h: unpacker"]}
{"id": "C57", "title": "Batch dispatching (and every other combination of receive modes) hands every message over once, in order, one call at a time", "statement": "With ST_ASIO_DISPATCH_BATCH_MSG, and in every combination with ST_ASIO_SYNC_DISPATCH and ST_ASIO_PASSIVE_RECV: what on_msg_handle has taken or accepted, the message being dispatched and what is in the receive buffer are, in this order, exactly the messages put into the buffer; at most one call of on_msg_handle runs at a time; a batch refused (0 returned) is offered again; when the dispatcher is at rest the buffer is empty; from every state the dispatcher can go on until the buffer is empty.", "quantifier": "all eight combinations of the three macros, all interleavings of the receiving strand, the dispatching strand, timers, users popping messages, link failures and reconnections; all handler results", "why_tests_cant": "the interleaving of the receiver, which decides by an unsynchronised flag whether to wake the dispatcher, with the dispatcher and with pops cannot be enumerated by tests", "anchors": ["include/socket.h:handle_msg", "include/socket.h:dispatch_msg", "include/socket.h:do_dispatch_msg", "include/socket.h:on_msg_handle"]}
{"id": "C58", "title": "Synchronous dispatching: on_msg sees every message exactly once, what it leaves goes on to on_msg_handle", "statement": "With ST_ASIO_SYNC_DISPATCH on_msg is called with exactly the messages received, each once and in order of reception, and exactly the messages it leaves, if it keeps its contract (it returns 0 only if it handled nothing), are put into the receive buffer, in order; without the macro exactly the messages received are put into the buffer and on_msg is never called.", "quantifier": "all histories of reads, on_msg results and left messages, in all combinations of the receive modes", "why_tests_cant": "needs every split of reads into messages and every choice of what on_msg leaves", "anchors": ["include/socket.h:handle_msg", "include/socket.h:on_msg"]}
{"id": "C59", "title": "Passive receiving: never two reads at once, never a read unasked, always a reaction", "statement": "With ST_ASIO_PASSIVE_RECV at most one read is outstanding at any time; there are never more reads than calls of recv_msg (one of them made by the library when the link comes up); recv_msg on a ready link from which nothing is read leads to a read; during a read it does nothing; every read that ended well gives the user a call of on_msg or at least one message, if need be an empty one, so that the next recv_msg can be called. The first clause holds in every mode.", "quantifier": "all interleavings of recv_msg calls from any thread or callback with reads, handlers, link failures and reconnections", "why_tests_cant": "the flag is tested outside of the strand and set inside, so the property depends on interleavings", "anchors": ["include/socket.h:recv_msg", "include/socket.h:handle_msg", "include/socket.h:test_and_set_reading", "include/tcp/socket.h:do_recv_msg", "include/tcp/socket.h:recv_handler", "include/udp/socket.h:do_recv_msg"]}
{"id": "C60", "title": "Unconnected UDP: messages come with their senders' addresses and go to the addresses given", "statement": "On a UDP socket without connect mode, every message handed to the user is the content of one datagram that arrived (cut off at the size of the receive buffer) together with the address of its sender, in the order of arrival, none twice and until the socket is closed none left out except empty datagrams; every message sent goes out as one datagram to exactly the address it was given to the sending function with (the peer address at the time of the call if none was given), in the order of acceptance; and a started socket keeps receiving until a receive fails.", "quantifier": "every sequence of arrivals, sends, failures, address changes, suspensions, closings and restarts", "why_tests_cant": "which address is attached depends on what happens between the completion of a receive and its handler; any interleaving is possible", "anchors": ["include/udp/socket.h:do_start", "include/udp/socket.h:do_recv_msg", "include/udp/socket.h:recv_handler", "include/udp/socket.h:do_send_msg", "include/udp/socket.h:set_peer_addr", "include/base.h:udp_msg"]}
{"id": "C61", "title": "Connected UDP: only the peer's messages, and only to the peer", "statement": "On a UDP socket in connect mode, everything handed to the user was sent by the peer and carries its address, and everything sent goes to the peer.", "quantifier": "every sequence of arrivals, sends, address changes, closings and restarts", "why_tests_cant": "a datagram must arrive in a window of microseconds or the address be changed at the right moment", "anchors": ["include/udp/socket.h:do_start", "include/udp/socket.h:set_connect_mode", "include/udp/socket.h:recv_handler", "include/udp/socket.h:connect", "include/udp/socket.h:bind"]}
{"id": "C62", "title": "Every socket of a running service is started", "statement": "Once a service that holds many sockets is up, every socket that was added to it successfully, before, during or after start_service and by whatever thread, is started as soon as its add_socket call has returned, unless starting the socket itself fails.", "quantifier": "all interleavings of any number of add_socket calls, their inner steps, starting and stopping the pump and the service, removals and closings", "why_tests_cant": "the window between putting a socket into the pool and looking whether the pump runs, against the steps of start_service, cannot be hit on purpose by a test", "anchors": ["include/socket_service.h:multi_socket_service::add_socket", "include/socket_service.h:multi_socket_service::init", "include/service_pump.h:do_service", "include/socket.h:start"]}
{"id": "C63", "title": "stop_service returns, and nothing runs afterwards", "statement": "stop_service() shuts down every socket of the service, returns after all of them have closed, and no socket is started when it returns.", "quantifier": "all interleavings of adding, removing and closing sockets with stop_service, all numbers of sockets", "why_tests_cant": "a hang needs a particular interleaving of add_socket or a removal with stop_service; tests do not hit it or cannot tell a hang from slowness", "anchors": ["include/service_pump.h:stop_service", "include/service_pump.h:end_service", "include/service_pump.h:wait_service", "include/tcp/client.h:multi_client_base::uninit", "include/udp/socket_service.h:multi_socket_service_base::uninit", "include/socket_service.h:del_socket"]}
{"id": "C64", "title": "Send functions take all or nothing, and leave what they refuse", "statement": "A send function of a TCP socket that returns false leaves the caller's messages as they were and puts nothing into the send buffer; one that returns true has put the whole of the caller's bytes, as they were at the time of the call, into the send buffer in one piece (as one frame unless native), at the end or, with prior, at the front, and has emptied what it was given by non-const reference; what it is given by const reference it never changes. The safe variants, which try again and again, put the message into the send buffer exactly once if they return true.", "quantifier": "all overloads (one message, two, a list, arrays of pointers), native or not, all settings, all contents of the send buffer, all numbers of repetitions", "why_tests_cant": "all combinations of overloads, flags and buffer states, and the environment's changes between attempts", "anchors": ["include/base.h:TCP_SEND_MSG", "include/base.h:TCP_SAFE_SEND_MSG", "include/base.h:TCP_SYNC_SEND_MSG", "include/base.h:TCP_SYNC_SAFE_SEND_MSG", "include/socket.h:do_direct_send_msg", "include/socket.h:do_direct_sync_send_msg", "include/ext/packer.h:pack_msg"]}
{"id": "C65", "title": "Broadcasts reach every socket once, in one common order", "statement": "broadcast_msg and the like offer the message exactly once to every socket that is in the pool when the call returns: the socket takes it or, if the send buffer has reached its limit, the message cannot be packed or (safe variants) the link is not ready, does not. No socket sends a broadcast twice or one it did not take. With the default mutex and unless prior is given, there is one order of all broadcasts, in agreement with the order of calls that do not overlap, in which all sockets send them. Likewise force_shutdown() for all sockets shuts every one down.", "quantifier": "all numbers of sockets and of threads that broadcast, send, add, close and remove sockets concurrently, all interleavings, all traversal orders of the pool, all states of the send buffers", "why_tests_cant": "the order is a relation between what all sockets send under all interleavings", "anchors": ["include/base.h:TCP_BROADCAST_MSG", "include/object_pool.h:do_something_to_all", "include/object_pool.h:del_object", "include/tcp/server.h:broadcast_msg", "include/tcp/client.h:broadcast_msg", "include/tcp/server.h:force_shutdown"]}
{"id": "C66", "title": "Functions that go over all sockets return", "statement": "A call of broadcast_msg, safe_broadcast_msg, force_shutdown() or another function that goes over all sockets of a server or client comes back, whatever other threads do with the pool, without the user's help.", "quantifier": "all reachable states: any number of sockets, concurrent calls from service threads and others, breaking links, full send buffers, stopped io_contexts", "why_tests_cant": "deadlocks need particular interleavings of the pool's mutex, closing links and full buffers; that there is a way out must hold in every state", "anchors": ["include/object_pool.h:do_something_to_all", "include/object_pool.h:del_object", "include/base.h:TCP_SAFE_SEND_MSG", "include/base.h:SAFE_SEND_MSG_CHECK", "include/socket.h:close", "include/tcp/server_socket.h:on_close", "include/tcp/server.h:uninit"]}
{"id": "C67", "title": "Messages that are buffer objects behave like byte strings", "statement": "With unique_buffer or shared_buffer as message type (packer2, unpacker2): an accepted send takes the bytes that its messages hold at the time of the call, framed once, and leaves a message given by reference empty; a refused send changes nothing and happens only because the send buffer is full or the message is too long. What each socket writes are the accepted bytes in order, whatever the program does with its message variables afterwards (new object, clear, copy, swap, change through raw_buffer()), also when one shared_buffer is sent over many sockets, and the byte count of the send buffer is that of the bytes waiting. Every received message is an object of its own whose bytes are those the wrapped unpacker delivers.", "quantifier": "every sequence of the program's operations on its message variables and of sends, taking and writing of any number of sockets; every message content, head size, native and packed sends of one message, two messages and lists; every unpacker and every division of the stream into pieces for reception", "why_tests_cant": "aliasing between messages that are queued, being written and still in the program's hands shows only in particular orders of operations; wrong byte counts show only much later", "anchors": ["include/base.h:object_buffer", "include/base.h:unique_buffer", "include/base.h:shared_buffer", "include/ext/packer.h:packer2", "include/ext/unpacker.h:unpacker2", "include/socket.h:do_direct_send_msg", "include/container.h:move_items_out"]}
{"id": "C68", "title": "raw_data gives the body of a message", "statement": "raw_data() and raw_data_len() of a packer, applied to a message that the packer packed, and of an unpacker, applied to a message that it unpacked, give exactly the body: the bytes the sender passed, without head, prefix and suffix, stripped or not, and never memory outside of the message.", "quantifier": "every message, head size, prefix and suffix, every way to pack, every stream of messages and heartbeats cut into any pieces, stripped and unstripped reception, every packer and unpacker", "why_tests_cant": "the length is computed by unsigned subtraction, so that it is wrong only for particular kinds of messages (empty ones, pieces, messages without head), which tests of the usual kind do not contain", "anchors": ["include/ext/packer.h:raw_data", "include/ext/packer.h:raw_data_len", "include/ext/unpacker.h:raw_data", "include/ext/unpacker.h:raw_data_len", "include/base.h:raw_data"]}
{"id": "C69", "title": "Websocket messages arrive as they were sent", "statement": "Over a websocket link, on_msg_handle of the receiver gets exactly the messages that the peer's send functions accepted: each one as one message with the content that was sent, in the order of sending, none twice, none missing once everything has come to rest, and nothing that was not sent by the application.", "quantifier": "every sequence of calls of send_msg, send_native_msg (string, several strings, lists, arrays) and heartbeats by any number of threads, every interleaving with both strands, writes, reads, timers, refusals by on_msg_handle and a full receive buffer", "why_tests_cant": "the library splits messages into pieces, and on a websocket link each piece becomes a message of its own; which of the many send functions are affected, and that nothing is reordered or lost under any interleaving, are statements about all schedules", "anchors": ["include/tcp/websocket/websocket.h:parse_msg", "include/tcp/websocket/websocket.h:batch_msg_send_size", "include/ext/websocket.h:ST_ASIO_DEFAULT_PACKER", "include/tcp/socket.h:recv_handler", "include/base.h:TCP_SEND_MSG"]}
{"id": "C70", "title": "Congestion control in on_msg_handle loses nothing", "statement": "A server whose on_msg_handle answers each message with send_msg and returns its result (so that a message is refused while the send buffer is full, and handed over again later) answers every message, also while the client goes on sending for ever: the client gets the answers in the order of its messages, each exactly once and with the same content; nothing is lost, repeated or reordered however often messages are refused; the two sides cannot block each other, a message is refused only while the send buffer is full, and the server's buffers never exceed their limits by more than one message (send buffer) or one read (receive buffer).", "quantifier": "every sequence of messages (any sizes the packer accepts, including empty ones and heartbeats), every value of the two buffer limits, every interleaving of client threads, the strands of both sides, writes and reads of any sizes, timers and refusals by the client", "why_tests_cant": "loss, duplication or a mutual block needs a particular order of refusals, timers, partial writes and full buffers on two machines; no test covers all of them", "anchors": ["echo_server/echo_server.cpp:echo_socket::on_msg_handle", "include/socket.h:do_dispatch_msg", "include/socket.h:dispatch_msg", "include/base.h:TCP_SEND_MSG", "include/tcp/socket.h:send_msg"]}
{"id": "C71", "title": "Timers call back when they are due", "statement": "The call back of a timer is invoked when it is due and not earlier: not before the milliseconds given to the newest set_timer/start_timer (or, for a repeating timer, the interval since the call back returned) have passed in real time, once for each start, and never when the timer is stopped; when it is due nothing but a free service thread is needed; with ST_ASIO_ALIGNED_TIMER a repeating timer becomes due a whole number of intervals after the previous call began (to the millisecond), and at most one interval after it ended.", "quantifier": "every history of set_timer, start_timer, stop_timer, change_timer_interval, expiries, queued handlers, call backs of any duration, clock adjustments, both timer types and both settings of ST_ASIO_ALIGNED_TIMER", "why_tests_cant": "depends on the moment of a restart relative to an expiry in the queue, and on durations and clock adjustments no test enumerates", "anchors": ["include/timer.h:timer_handler", "include/timer.h:start_timer", "include/timer.h:stop_timer", "include/timer.h:set_timer", "include/timer.h:change_timer_interval"]}
{"id": "C72", "title": "Calls of one timer's call back do not overlap", "statement": "The call back of a timer is never invoked while an earlier invocation of the same timer's call back has not returned, with any number of service threads (the header promises that for the same timer it is called in sequence).", "quantifier": "every history of starts, stops, expiries and call backs of any duration, with any number of service threads", "why_tests_cant": "overlap needs an expiry during a running call back, on another thread", "anchors": ["include/timer.h:timer_handler", "include/timer.h:start_timer"]}
{"id": "C73", "title": "Messages of a reconnecting client have one fate", "statement": "Whatever happens to the link, every message a client accepted has exactly one fate, in the order of acceptance: it was given to the kernel on one of the client's links and then reported once, by on_msg_send (then this link's stream contains all of it) or by on_send_error, or it is being written, or it waits in the send buffer for the next link. The stream of every link consists of whole messages from its first byte on, only its end may be cut, so the server behind any link receives only messages that were sent, unchanged and in order; and a new link sends what waits without any further call.", "quantifier": "every sequence of send calls (with or without a link), thread steps, partial writes, failing writes, broken links and reconnections, every division of each stream into reads", "why_tests_cant": "needs every moment at which a link can break relative to every step of the send path", "anchors": ["include/tcp/client_socket.h:after_close", "include/tcp/socket.h:send_handler", "include/tcp/socket.h:on_send_error", "include/socket.h:send_msg", "include/ext/packer.h:packer::pack_msg"]}
{"id": "C74", "title": "Putting failed messages back loses nothing", "statement": "If the user's on_send_error puts the messages it is given back in front of the send buffer (direct_send_msg with prior), no message is lost over reconnections and none is overtaken: the messages reported by on_msg_send are the accepted ones, in order, each once; every message reported is completely contained in the stream of a link; on every link the server receives messages that were sent, unchanged, in order and without gaps, starting with the first one that was not yet reported when the link was established.", "quantifier": "every sequence of send calls, thread steps, partial writes, failing writes, broken links and reconnections", "why_tests_cant": "needs every moment at which a link can break relative to every step of the send path", "anchors": ["include/tcp/socket.h:on_send_error", "include/tcp/socket.h:send_handler", "include/socket.h:direct_send_msg", "include/tcp/client_socket.h:after_close"]}
{"id": "C75", "title": "Messages over reliable UDP arrive as they were sent", "statement": "Between two connected KCP sockets every message a send function accepted is handled by the other side exactly once, unchanged and in order, whatever datagrams the network loses, delays or repeats, with congestion control and a bounded receive buffer; nothing else is handled and no assertion fails.", "quantifier": "all messages, all interleavings of sending threads, strands, timers, KCP updates and datagrams, all refusals by on_msg_handle", "why_tests_cant": "Interleavings of two congestion mechanisms with arbitrary datagram schedules, and messages of every length, cannot be enumerated.", "anchors": ["include/udp/reliable_socket.h:pre_handle_msg", "include/udp/reliable_socket.h:do_send_msg", "include/udp/reliable_socket.h:check_send_cc", "include/udp/socket.h:recv_handler", "include/ext/unpacker.h:compose_msg"]}
{"id": "C76", "title": "Send notifications are truthful and complete", "statement": "on_msg_send is called exactly once for each message that was written, in the order written, after all its bytes were given to the kernel; whenever on_all_msg_send is called nothing accepted so far is waiting or in flight, and its argument is the message written last; and whenever the send buffer ran empty and everything came to rest, on_all_msg_send was called after the last accepted message.", "quantifier": "all messages, all interleavings of sending threads, the strand, the kernel and the call backs, all notification macros, TCP, websocket and UDP", "why_tests_cant": "Whether a concurrent send slips between the look into the send buffer and the call back depends on the schedule.", "anchors": ["include/tcp/socket.h:send_handler", "include/tcp/socket.h:batch_msg_send_size", "include/udp/socket.h:send_handler", "include/socket.h:on_msg_send", "include/socket.h:on_all_msg_send"]}
{"id": "C77", "title": "A started UDP socket goes on receiving", "statement": "As long as a UDP socket is started and is not being closed, the datagrams that reach it are handed to the user one after another, in order, whatever came before: empty datagrams, datagrams longer than the receive buffer, a full receive buffer, failed sends, earlier starts, errors reported for earlier datagrams.", "quantifier": "every configuration of the receive buffer, every history of starts, closings, resets, sends, arrivals and errors, and every order in which the library's handlers run", "why_tests_cant": "Tests send a few datagrams and see them arrive; whether reception survives every sequence of oddities is a statement about all histories.", "anchors": ["include/udp/socket.h:recv_handler", "include/udp/socket.h:do_recv_msg", "include/socket.h:check_receiving", "include/socket.h:handled_msg"]}
{"id": "C78", "title": "UDP messages over close and start", "statement": "Messages accepted by a UDP socket survive closing and starting it again (without reset()): each is given to the kernel once, in order, and reported exactly once, those that were not sent before the socket was closed are sent after it was started again without further calls, and no message given to a closed socket is reported as sent.", "quantifier": "every interleaving of senders, kernel completions, start, close, on_close and reset, any number of messages and restarts", "why_tests_cant": "Depends on the moment of the close relative to every step of every sender.", "anchors": ["include/udp/socket.h:is_ready", "include/udp/socket.h:do_send_msg", "include/udp/socket.h:send_handler", "include/udp/socket.h:reset", "include/socket.h:close", "include/socket.h:start"]}
{"id": "C79", "title": "Memory of pooled sockets", "statement": "No handler of a socket that lives in an object pool runs after the socket was destroyed, and none of a former connection runs after the socket was given to a new one: a socket is freed or reused only when it is closed, none of its asynchronous calls is pending or running and nobody else holds a pointer to it. Once a socket was closed and removed from the pool and nobody holds a pointer to it, it is freed.", "quantifier": "every history of one socket object: creating, adding, finding, starting, sending, closing, deleting, sweeping, freeing and reusing, by any threads and call backs in any interleaving, over any number of service restarts", "why_tests_cant": "a use after free needs a particular interleaving of a handler, the freeing timer and a user thread; tests see it only by luck, and its absence needs all interleavings", "anchors": ["include/object_pool.h: add_object del_object finalize reuse_object invalid_object_pop clear_obsoleted_object free_object", "include/socket.h: reset obsoleted start close timer_handler", "include/tracked_executor.h: tracked_executor", "include/timer.h: timer_handler", "include/service_pump.h: stop wait_service"]}
{"id": "C80", "title": "Timer call backs outlive their invocation", "statement": "The function object given to set_timer or change_timer_call_back is not destroyed before an invocation of it has returned, so a call back may be replaced from within itself, or by another thread while it is running (the library does both).", "quantifier": "every history of setting, replacing, starting and stopping a timer, of expiries and of call backs of any duration on any number of threads, and every kind of function object", "why_tests_cant": "the freed memory usually still has its old contents, so nothing is observed; the race needs a second thread in the window between the call and its return", "anchors": ["include/timer.h:change_timer_call_back", "include/timer.h:create_or_update_timer", "include/timer.h:timer_handler", "include/tcp/socket.h:shutdown_handler", "include/socket.h:handled_msg"]}
{"id": "C81", "title": "The pingpong test counts its own bytes and always ends", "statement": "pingpong_client: in every test, a link sends the bytes it receives back until it has received (number of messages) * (size) bytes since the test began; it is reported as completed exactly then and exactly once, however TCP splits and joins the messages. Until then bytes of it are always on their way, so that it always goes on and ends after a bounded number of receptions. Tests in a row each count only their own bytes.", "quantifier": "all numbers and sizes of messages, all splits of the stream at both ends, all interleavings, any number of tests in a row over the same link", "why_tests_cant": "how the stream is cut into messages depends on the network; a test run shows one cut of each", "anchors": ["pingpong_client/pingpong_client.cpp: echo_socket::begin", " handle_msg", " main", "pingpong_server/pingpong_server.cpp: echo_socket::on_msg"]}
{"id": "C82", "title": "A log line never leaves its buffer and is the line, cut if necessary", "statement": "Whatever the level, thread, time, format and arguments of a log output are, the output stays inside of the buffer (of any size), ends with a NUL, and is the line [level] [thread] time -> text, cut after the size of the buffer minus one characters.", "quantifier": "all buffers, levels, threads, times and texts, of any length", "why_tests_cant": "lengths around the size of the buffer and the contents of uninitialised memory are not covered by tests", "anchors": ["include/base.h: log_formater::to_time_str", " log_formater::all_out"]}
{"id": "C83", "title": "A name stands for the link that was added under it", "statement": "socket_management: send_msg, shutdown_link and add_link by name are about the link added last under this name; once this link was shut down or is gone, the name is free again, and only then.", "quantifier": "all sequences and interleavings of adding, shutting down, sending, connecting, failing and breaking links, any number of names and links", "why_tests_cant": "the end of receiving comes at any time after a shutdown; tests see one order", "anchors": ["socket_management/client.h: my_client", " my_client_socket::on_recv_error", "include/tcp/client_socket.h: connect_handler", " prepare_next_reconnect"]}
{"id": "C84", "title": "A server which creates its sockets in advance goes on accepting", "statement": "A server whose start_next_accept goes on only after all but ten of ST_ASIO_ASYNC_ACCEPT_NUM connections were established (config.h, concurrent_server) always has accepts under way while it listens, always at least ten; and creates no further socket before.", "quantifier": "all orders of connecting, handlers and leaving, any number of connections", "why_tests_cant": "needs thousands of connections in any order", "anchors": ["include/config.h: ST_ASIO_ASYNC_ACCEPT_NUM", "concurrent_server/concurrent_server.cpp: echo_server::start_next_accept", "include/tcp/server.h: accept_handler", " start_next_accept"]}
{"id": "C85", "title": "The links of echo_client are distributed evenly over the sending threads", "statement": "Every link is in exactly one group, there is one group for each thread (or link, if there are fewer), sizes differ by at most one, no group is empty, and no group is accessed that does not exist.", "quantifier": "any number of threads and links; links that go or come during the distribution", "why_tests_cant": "all combinations of numbers", "anchors": ["echo_client/echo_client.cpp: group_links", " send_msg_concurrently"]}
{"id": "C86", "title": "file_client works through its list", "statement": "file_client takes on the files it is asked for in the order of the commands, each once; it transfers one file at a time (a transfer only begins when all links are idle), only files which cannot be opened fail, never more bytes than a file has are moved, 100% is only reported when all bytes have been moved, and a transfer always ends so that the next file gets its turn.", "quantifier": "all numbers of links, all lists of files (get and put) and their lengths, all interleavings of commands, answers of the server, received and sent chunks, timer calls, failures of fopen, fread and the server, losses of connections", "why_tests_cant": "Depends on the interleaving of the timer, the links and the commands; losing a connection or giving a command in the short time between 100% and the end of the last link is hard to provoke.", "anchors": ["file_client/file_client.h: file_client::get_file put_file transmit_file update_progress_handler is_end", "file_client/file_client.h: file_socket::get_file truncate_file put_file trans_end handle_msg on_msg_send", "file_common/file_buffer.h: file_buffer::read", "file_common/unpacker.h: file_unpacker::parse_msg"]}
{"id": "C87", "title": "The echo test shows what it is meant to show", "statement": "When echo_client tests an echo_server, over each link exactly the messages which were sent over it in this test come back, in order, each once and none of an earlier test; the test is reported as finished exactly when all are back, and it always ends however small the buffers are; a message that is right is never reported as wrong (\"check msg error\"), however many tests follow each other.", "quantifier": "all numbers of links and sending threads, all numbers and lengths of messages, all random choices of links, all limits of buffers and of the network, all sequences of tests, all interleavings of the main thread, the sending threads, the network, the server and the receiving of the client", "why_tests_cant": "The result depends on how the sending threads, both sides' buffers, and the main thread's counting interleave; the wrong complaint needs the main thread to see the end between two adjacent statements of the receiving thread.", "anchors": ["echo_client/echo_client.cpp: echo_socket::handle_msg clear_status on_msg", "echo_client/echo_client.cpp: echo_client::get_recv_bytes clear_status", "echo_client/echo_client.cpp: send_msg_randomly send_msg_concurrently thread_runtine start_test", "echo_server/echo_server.cpp: echo_socket::on_msg_handle"]}
{"id": "C88", "title": "Shutting down a secure or websocket link ends in on_close", "statement": "After disconnect(), force_shutdown() or graceful_shutdown() of a started SSL socket, websocket or SSL websocket, on_close is called some time, whatever the peer does or fails to do, whenever the call happens (connecting, during a handshake, while messages are being received, after the first call), and however the receive buffer and other threads' sending behave, provided that posted tasks are run, timers fire, and operations on a closed socket complete.", "quantifier": "all sequences of API calls, messages, receive errors, handshake results, time-outs and completions of async_shutdown / async_close, all infinite fair schedules; clients and servers, SSL, websocket and both, active and passive receiving, with and without blocking receiving", "why_tests_cant": "The property is about infinite schedules: that nothing is forgotten for ever. A test that waits sees only the schedules it happens to produce, and a silent or strangely timed peer is easily missed.", "anchors": ["include/tcp/ssl/ssl.h: socket::shutdown_ssl on_recv_error", "include/tcp/websocket/websocket.h: socket::shutdown_websocket", "include/tcp/socket.h: start_graceful_shutdown_monitoring shutdown_handler recv_handler _force_shutdown shutdown", "include/socket.h: close timer_handler do_recv_msg check_receiving"]}
{"id": "C89", "title": "A program that sends only from on_msg and at most once from on_connect may use queues without locks", "statement": "With ST_ASIO_SYNC_DISPATCH and an on_msg that consumes all messages, if on_connect sends at most one message and no other thread sends (as concurrent_server and concurrent_client do), then no two threads are ever inside the container of the send queue or of the receive queue at the same time while one of them changes it, although the queues (non_lock_queue) take no lock; without status requests, the byte counts are not read while they change either. With lock_queue the containers are safe for every program. The send queue alone may do without a lock in every dispatching mode when nothing is sent from on_msg_handle or from other threads.", "quantifier": "all schedules of the service threads, the timers and the threads of the application, all numbers of messages sent by the callbacks, all links one after the other on the same socket object", "why_tests_cant": "two operations on a list overlap only in rare interleavings; a test that does not hit them corrupts nothing and sees nothing", "anchors": ["include/container.h:queue", " include/container.h:non_lock_queue", " include/socket.h:do_direct_send_msg", " include/socket.h:handle_msg", " include/socket.h:do_dispatch_msg", " include/tcp/socket.h:do_send_msg", " include/tcp/socket.h:do_start", " concurrent_server/concurrent_server.cpp:on_msg", " concurrent_client/concurrent_client.cpp:on_connect"]}
{"id": "C90", "title": "A refused message is offered again and paused receiving resumes", "statement": "If on_msg_handle returns false (refuses a message), the message is offered to it again after a while, for as long as the link lives; and a socket that stopped reading because its receive buffer was full reads again after the buffer has become available.", "quantifier": "every schedule of arriving messages, refusals, timer expirations and timer handlers, on one and on several service threads", "why_tests_cant": "The retry depends on a timer that is set again by one thread while the handler of its previous expiration may not have finished in another; the harmful window is a single pair of instructions, which no test hits on purpose and no finite test excludes.", "anchors": ["include/timer.h:timer::timer_handler", "include/timer.h:timer::start_timer", "include/socket.h:do_dispatch_msg", "include/socket.h:handled_msg", "include/socket.h:check_receiving", "include/socket.h:timer_handler"]}
{"id": "C91", "title": "No member of a socket's statistic is used by two threads at a time", "statement": "Within the library, no two threads use the same member of a TCP socket's statistic (get_statistic) at the same time while one of them changes it; the source code claims so and therefore uses no lock.", "quantifier": "every interleaving of on_connect, on_msg, on_msg_handle, receiving, sending, closing, the timers and other sending threads, in every dispatching mode", "why_tests_cant": "An unsynchronised access that overlaps once in a million runs gives a wrong number or nothing visible at all; only a proof over all interleavings tells which members are safe.", "anchors": ["include/socket.h:get_statistic", "include/socket.h:check_heartbeat", "include/socket.h:handle_msg", "include/socket.h:do_dispatch_msg", "include/base.h:statistic", "include/base.h:TCP_SEND_MSG", "include/tcp/socket.h:send_heartbeat", "include/tcp/socket.h:send_handler"]}
{"id": "C92", "title": "A new socket has default settings, and a link goes to the address it was asked for", "statement": "A socket given by create_object has all its settings (addresses, connect mode, buffer limits, intervals, packer, unpacker, call backs, reconnect flag) at their defaults; add_socket(...) starts a socket that uses exactly the addresses the call gives, and the defaults for those it does not give, or fails; settings of a socket change only by its own setters; a socket that reconnects uses the addresses of its last start unless they were set since.", "quantifier": "every history of creating, configuring, adding, closing, reusing and freeing sockets, every overload of add_socket, every ip and port, with and without ST_ASIO_REUSE_OBJECT", "why_tests_cant": "Whether a socket carries something over from a previous life depends on the whole history of the pool; a test sees new objects or the one history it plays.", "anchors": ["include/object_pool.h:reuse_object", "include/object_pool.h:create_object", "include/socket.h:reset", "include/tcp/client.h:add_socket", "include/tcp/client_socket.h:set_addr", "include/tcp/client_socket.h:reset", "include/udp/socket.h:set_addr", "include/udp/socket.h:reset", "include/udp/socket_service.h:add_socket"]}
{"id": "C93", "title": "Every protocol of the library carries messages from send_msg to on_msg_handle", "statement": "With each packer/unpacker pair of the library (header with unpacker, flexible_unpacker or non_copy_unpacker; fixed length; prefix and suffix; no protocol), as long as the link lives: what the receiver's on_msg_handle accepts is, in order, exactly once and unchanged, what the sender's send functions accepted (without a protocol: the same bytes), and everything accepted arrives, without the help of further sends; nothing ends in an unpack error, a failing assertion or an access outside of a buffer.", "quantifier": "every pair and its settings, every sequence of send calls of any kind the protocol can express, every schedule of threads, strands, timers and kernels, every way the stream is cut, every content of uninitialised memory, any refusals by the receiver", "why_tests_cant": "Each pair has its own buffer management, and each must work with every cut of the stream, every interleaving and a receive buffer that fills up; tests try one pair with one timing.", "anchors": ["include/ext/packer.h:packer", "include/ext/packer.h:fixed_length_packer", "include/ext/packer.h:prefix_suffix_packer", "include/ext/unpacker.h:unpacker", "include/ext/unpacker.h:flexible_unpacker", "include/ext/unpacker.h:non_copy_unpacker", "include/ext/unpacker.h:fixed_length_unpacker", "include/ext/unpacker.h:prefix_suffix_unpacker", "include/ext/unpacker.h:stream_unpacker", "include/tcp/socket.h:do_send_msg", "include/tcp/socket.h:recv_handler", "include/socket.h:do_dispatch_msg"]}
{"id": "C94", "title": "The last messages before the end of a link", "statement": "However a link ends, what on_msg_handle accepted is a beginning of what the other side sent, in whole messages: a message of which only a part arrived is never shown. Every message that arrived completely is handed to on_msg_handle before on_close; on_close is called once and nothing is handled after it. A sender that ends the link after its last message was written loses nothing, and a link that ended is always closed.", "quantifier": "every packer/unpacker pair and its settings, every sequence of sends, every cut of the stream, every moment and every way the link can end (the sender's shutdown, a reset, the receiver's own shutdown), every schedule of threads, timers and strands, any refusals by the receiver, every content of uninitialised memory", "why_tests_cant": "The end of a link races with the messages still being dispatched and with the closing timer; the stream can be cut at every byte of a message; a test ends the link at a few moments only.", "anchors": ["include/tcp/socket.h:recv_handler", "include/tcp/socket.h:shutdown", "include/socket.h:close", "include/socket.h:timer_handler", "include/socket.h:do_dispatch_msg", "include/tracked_executor.h:is_last_async_call", "include/tcp/server_socket.h:on_recv_error", "include/tcp/client_socket.h:on_recv_error", "include/ext/unpacker.h:unpacker", "include/ext/unpacker.h:prefix_suffix_unpacker"]}
{"id": "C95", "title": "Every mode of receiving delivers every message with every protocol", "statement": "On a TCP link that stays up, with any packer/unpacker pair of the library at both ends and with any combination of ST_ASIO_DISPATCH_BATCH_MSG, ST_ASIO_SYNC_DISPATCH and ST_ASIO_PASSIVE_RECV: with synchronous dispatching on_msg is called with exactly the messages accepted by the send functions, unchanged, each once, in order, and exactly what it leaves goes to on_msg_handle, in order; without it on_msg_handle gets exactly the messages sent, unchanged, each once, in order (one by one or in batches; with passive receiving additional empty messages stand for reads that completed no message). When nothing can go on any more (and, with passive receiving, a read asked for is outstanding) everything sent was handed over, and the library can always get there. With passive receiving no more reads begin than were asked for. In every infinite execution in which no part of the library, the network or (with passive receiving) the user asking for reads is ignored for ever, every message sent is eventually handed over, however much is sent after it.", "quantifier": "every packer/unpacker pair with usable settings, all eight combinations of the macros, every sequence of sends from any threads, every way the stream is cut into reads, every interleaving of sender, network, strand, timers, dispatcher and handlers, every behaviour of on_msg and on_msg_handle allowed by their contracts", "why_tests_cant": "The modes are chosen at compile time, and the interleavings and cuts of the stream are unbounded in number; a test runs one build with a few schedules.", "anchors": ["include/socket.h: recv_msg, handle_msg, dispatch_msg, do_dispatch_msg, handled_msg, check_receiving", "include/tcp/socket.h: do_recv_msg, recv_handler, do_send_msg, send_handler", "include/ext/packer.h", "include/ext/unpacker.h", "include/base.h: TCP_SEND_MSG"]}
{"id": "C96", "title": "UDP messages get from send_msg to on_msg and on_msg_handle over any network", "statement": "Any number of UDP sockets of the library send to one UDP socket of the library over a network that may lose, duplicate and reorder datagrams, and strangers may send it datagrams too. Every message a receiver's on_msg or on_msg_handle gets is a datagram that arrived, cut off at ST_ASIO_MSG_BUFFER_SIZE bytes, in the order of arrival, each exactly once; an empty datagram is skipped and later ones are still received. A datagram a library socket put on the network is a message it accepted, put there at most once and in the order of acceptance. So if the network keeps the order the messages of each sender are received in the order they were accepted, and if it does not duplicate none is received more often than it was sent. If it also loses nothing and everything fits into the buffer, everything sent is received, whole, in order. The system can always go on until everything accepted was sent and everything that arrived was handled. Under fair scheduling this happens by itself: every datagram that arrived is handed over at some time whatever else arrives, every accepted message leaves at some time, and if the network brings each datagram at least once and the kernel refuses none, every accepted message is handed over at some time.", "quantifier": "every number of senders, every sequence of sends from any threads to any peers, every interleaving, every loss, duplication and reordering, every stranger's datagram, every buffer size, all eight combinations of the receiving macros, every behaviour of on_msg and on_msg_handle allowed by their contracts", "why_tests_cant": "Loss, duplication, reordering and the interleavings of several senders are unbounded in number and cannot be provoked on a loopback interface.", "anchors": ["include/udp/socket.h:do_send_msg/send_handler/do_recv_msg/recv_handler", "include/socket.h:handle_msg/dispatch_msg/do_dispatch_msg/direct_send_msg", "include/base.h:UDP_SEND_MSG", "include/ext/unpacker.h:udp_unpacker"]}
{"id": "C97", "title": "A new basic_buffer contains what it was made from", "statement": "Every constructor of basic_buffer makes a buffer with exactly the content asked for: nothing; n bytes of any content (no bytes for a negative int); n times a character; a C string without its NUL; the bytes of a pointer and a length or of an array, no more than the array has; the content of another buffer or string, its rest from a position on, or a part of it given by position and length. If that is more than UINT_MAX bytes std::length_error is thrown. No memory outside of the arguments is read.", "quantifier": "every constructor with every argument (strings, positions, lengths, buffers with any history)", "why_tests_cant": "The arguments range over all strings, positions and lengths, including the limits of 32 and 64 bit numbers.", "anchors": ["include/ext/ext.h:basic_buffer constructors"]}
{"id": "C98", "title": "A server listens, and a UDP socket is bound, where it was told to", "statement": "A server listens exactly as long as start_listen() returned true and stop_listen() was not called since, at the address configured when start_listen() was called; a started UDP socket is bound to the address configured when it was started (to none if none was configured). Other programs may use and release addresses and the addresses may be changed at any time, between IPv4, IPv6 and unix domain. When the address is free start_listen() and start() succeed, whatever happened before, and so they do after stop_listen() or closing.", "quantifier": "every sequence of changing the address, opening the socket by hand, starting, stopping, and other programs using and releasing addresses and files", "why_tests_cant": "Whether an address is free, and which error the system reports, depends on other programs and on the whole history of the socket; the failures need a bind or listen that fails in the middle of it.", "anchors": ["include/tcp/server.h:start_listen stop_listen", "include/udp/socket.h:do_start bind", "include/socket.h:start close"]}
{"id": "C99", "title": "Finite buffers of kernels and network do not make the ends of a link block each other", "statement": "A link over kernels and a network that hold only a limited number of bytes delivers everything, however small the limit: messages sent in one direction are all handled, with every packer and unpacker of the library, and if one end answers every message, refusing messages while its own send buffer is full (congestion control in on_msg_handle), every message is answered. If both ends answer each other this way, messages go on to be handled as well; in each direction they arrive in order and exactly once and every answer is sent once.", "quantifier": "every number of bytes the network may hold, all sizes of send and receive buffers, all messages, all schedules of threads, strands, kernels, network and timers", "why_tests_cant": "A deadlock needs both windows and all four buffers to be full at the same moment, which depends on sizes of kernel buffers and on timing that a test does not control.", "anchors": ["include/tcp/socket.h:do_recv_msg recv_handler do_send_msg send_handler", "include/socket.h:check_receiving handled_msg do_dispatch_msg is_send_buffer_available", "include/base.h:TCP_SEND_MSG", "echo_server/echo_server.cpp:on_msg_handle"]}
{"id": "C100", "title": "Heartbeats at both ends keep a working link up and report a dead one in time", "statement": "On a TCP link with heartbeats at both ends: as long as the network works and all delays (of call backs of timers, of writes, of the network, together) are a second smaller than interval * max_absence minus the peer's longest gap (two intervals, one with ST_ASIO_ALWAYS_SEND_HEARTBEAT; with equal intervals and the default max_absence 3: a second smaller than the interval), on_heartbeat_error is never called, whatever the applications send and when; an end that has not received anything for more than interval * (max_absence + 1) seconds has called on_heartbeat_error, exactly once, whenever the network fails.", "quantifier": "all settings of both ends, all clocks of both ends, all times of checks, sends, receptions and failures of the network", "why_tests_cant": "The gap between two heartbeats depends on when, relative to the checks and to the full seconds of two clocks, messages are sent; tests do not hit the unlucky millisecond.", "anchors": ["include/socket.h: start_heartbeat", "include/socket.h: check_heartbeat", "include/socket.h: do_start", "include/timer.h: timer_handler", "include/tcp/socket.h: recv_handler", "include/tcp/socket.h: send_handler", "include/tcp/server_socket.h: on_heartbeat_error", "include/tcp/client_socket.h: on_heartbeat_error"]}
{"id": "C101", "title": "What is logged about bytes that cannot be unpacked shows exactly the unparsed bytes", "statement": "While a TCP stream can be unpacked nothing is logged about its bytes. When it cannot be unpacked, the message logged by on_unpack_error tells the length announced by the malformed head and shows, in hexadecimal digits that can be read back without loss, the bytes from that head on that have arrived: none of a message that was handed over, none that were not received, and no byte outside of the receive buffer is read. The log shows all of them.", "quantifier": "every byte stream, every segmentation into reads, every buffer size, initial buffer content and unpacker", "why_tests_cant": "The bytes shown depend on where the reads end, on what earlier messages left in the buffer and on how the buffer was moved; tests see a few segmentations.", "anchors": ["include/ext/unpacker.h unpacker_helper::dump_left_data", "include/ext/unpacker.h unpacker::dump_left_data", "include/ext/unpacker.h flexible_unpacker::dump_left_data", "include/ext/unpacker.h non_copy_unpacker::parse_msg", "include/ext/unpacker.h prefix_suffix_unpacker::dump_left_data", "include/tcp/socket.h recv_handler", "include/base.h log_formater::all_out"]}
{"id": "C102", "title": "start() and close() called by any number of threads exclude each other", "statement": "A scope_atomic_lock gets the lock only if no other object has it, keeps it until its unlock() or destruction, releases only what it has, gets it if it is free, and lock() of an object that has the lock is harmless. Any number of threads may call start() and close() of a socket at any time: at most one of them runs do_start() or closes the socket at any time, the socket is started only if it is not started and closed only if it is, close() returns true exactly for the call that closed it (so at most once per successful start), and false only if it found the socket not started. start() always returns if do_start() does. close() returns if the other threads do not go on calling start() and close() for ever.", "quantifier": "every number of lock objects and threads, every sequence of calls, every interleaving of the accesses to the flag, to _locked and to started_, every duration and result of do_start; infinite fair executions", "why_tests_cant": "The windows between test_and_set and the assignment of _locked, and between clear and the assignment, are a few instructions wide; the number of threads and of interleavings is unbounded.", "anchors": ["include/base.h:scope_atomic_lock", "include/base.h:atomic_flag", "include/socket.h:start/close"]}
{"id": "C103", "title": "A server that stops listening in on_accept takes the number of clients it was told to", "statement": "A TCP server whose on_accept calls stop_listen (the way echo_server accepts just one client) accepts, each time it listens, at most as many clients as async_accept_num gives, one if that is 1, whatever the order of connections, failures, handlers and calls of stop_listen; while it listens and no accept has failed, the next client that connects gets in, and no accept is issued afterwards. This supposes that listening is started again only after the handlers of the earlier listening have ended, as it is when the service is stopped and started.", "quantifier": "every async_accept_num, every history of connections, failures, stop_listen calls, restarts and handler steps in any number of threads", "why_tests_cant": "A second client gets in only if an accept is issued between stop_listen and is_listening of a handler in another thread; tests do not hit that.", "anchors": ["include/tcp/server.h start_listen", "include/tcp/server.h stop_listen", "include/tcp/server.h accept_handler", "include/tcp/server.h on_accept_error", "echo_server/echo_server.cpp get_async_accept_num", "echo_server/echo_server.cpp on_accept_handler"]}
{"id": "C104", "title": "The durations in the statistics are the times that messages wait, writes take and handlers run", "statement": "With ST_ASIO_FULL_STATISTIC, the send delay is accumulated from how long each message that is taken for sending waited in the send buffer, the send time from how long each successful write took, the dispatch delay from how long each message waited for the handler each time it is offered to it (since it was parsed, or since the handler refused it), the handle time from how long each call of the handler took, and the receive idle time from the periods in which receiving was halted because of a full receive buffer; nothing is missed, counted twice or attributed to another message, whatever the interleaving of threads with the clock.", "quantifier": "every history of sending, prior sending, batches, failed writes, discarding, parsing, refusals, batch handlers, halts and reconnects, any passing of time between any two steps, any setting of the clock", "why_tests_cant": "A wrong attribution depends on a message arriving between two readings of the clock, on handlers that leave messages over, or on a link that breaks while receiving is halted; tests see plausible sums.", "anchors": ["include/base.h:obj_with_begin_time", "include/base.h:statistic", "include/socket.h:do_dispatch_msg", "include/socket.h:check_receiving", "include/socket.h:handle_msg", "include/tcp/socket.h:do_send_msg", "include/tcp/socket.h:send_handler", "include/udp/socket.h:do_send_msg", "include/udp/socket.h:send_handler"]}
{"id": "C105", "title": "A short client connects once", "statement": "A link that client.cpp's short_client adds for a message, with a callback on on_connect that switches reconnecting off, tries until it is connected, connects at most once, and is not started again after it was closed, whatever attempts fail and however the link ends, in any interleaving of the thread that sends with the threads of the service.", "quantifier": "every history of attempts, failures, losses, shutdowns and closings, every interleaving of registering the callback with the link's own steps", "why_tests_cant": "The callback is registered after the link was started; whether it is in place when the connection is established depends on the scheduling of two threads.", "anchors": ["client/client.cpp:short_client", "include/ext/callbacks.h:c_socket", "include/tcp/client_socket.h:connect_handler", "include/tcp/client_socket.h:on_close"]}
{"id": "C106", "title": "KCP is told the right time and updated when it asks to be", "statement": "From start() to close() of a reliable UDP socket for which a KCP control block was created, KCP is updated no later than the time it asked for plus the delays of timer and call back, and not earlier by the update timer; of any two updates less than 7 weeks apart the difference of the clock values KCP gets is the time that passed, to the millisecond, also when the 32-bit clock wraps; the control block is never released while in use and nothing is updated after on_close; the timer does not crash.", "quantifier": "every history of create_kcpcb, start, close, timer expiries and updates, every wait KCP asks for, every start time and every delay within the bounds", "why_tests_cant": "The clock wraps every 7 weeks; races between create_kcpcb, close and the timer's call back; unbounded histories.", "anchors": ["include/udp/reliable_socket.h:do_start", "include/udp/reliable_socket.h:timer_handler", "include/udp/reliable_socket.h:iclock", "include/udp/reliable_socket.h:create_kcpcb", "include/timer.h:change_timer_interval"]}
{"id": "C107", "title": "Heartbeats of UDP sockets over a network that loses datagrams", "statement": "If both ends use heartbeats with sensible settings, a listener does not report its peer as not available while the peer is running, although the network delays, reorders and loses datagrams (of K in a row one arrives); if the peer falls silent it is reported within interval * (max_absence + 1) seconds, and again and again while the silence lasts; a report is preceded by interval * max_absence seconds of silence. Heartbeats are not shown to the peer's program.", "quantifier": "all settings of both ends, all bounds of delays and losses, all offsets of the clocks, and all sequences and times of sends, completions, failures, timers, losses, deliveries, duplicates and stray datagrams within these bounds", "why_tests_cant": "depends on where the ticks of two clocks that count seconds fall, and on which datagrams are lost; the silence that is reported by mistake takes a particular phase of the clocks", "anchors": ["include/socket.h:check_heartbeat", "include/socket.h:start_heartbeat", "include/udp/socket.h:send_heartbeat", "include/udp/socket.h:on_heartbeat_error", "include/udp/socket.h:recv_handler", "include/udp/socket.h:send_handler", "include/ext/packer.h:pack_heartbeat", "include/ext/unpacker.h:udp_unpacker"]}
{"id": "C108", "title": "From where and to where a client connects", "statement": "Every attempt of a TCP client to connect goes to the server address set last and comes from the local address set last (if one was set), at the first attempt, when trying again, and when reconnecting after a link was lost; there is no connection without an attempt. Setting an address either succeeds or changes nothing.", "quantifier": "all histories of calls (set_server_addr, set_local_addr with any text, start, shutdowns, set_reconnect), connection results, lost links, answers of prepare_reconnect, and all answers of the kernel to bind", "why_tests_cant": "the address in force depends on when it was set relative to timers and on what became of earlier attempts; the kernel socket is opened, bound and closed in different functions", "anchors": ["include/tcp/client_socket.h:set_addr", "include/tcp/client_socket.h:set_local_addr", "include/tcp/client_socket.h:bind", "include/tcp/client_socket.h:connect", "include/tcp/client_socket.h:prepare_next_reconnect"]}
{"id": "C109", "title": "concurrent_client shuts a link down if and only if an echo takes too long", "statement": "A link of concurrent_client is shut down by the program only if more than max_delay passed since it was connected or an echo came last, an echo that took longer than max_delay is never gone on with but has its link shut down, a missing echo is noticed within max_delay and five seconds (and the time handlers may be late), a link shut down so is never connected again, and on every link at most one message is on its way.", "quantifier": "every max_delay, every history of connections, losses, writes, echoes and expiries of the timer, every timing in which no handler is late by more than a bound", "why_tests_cant": "A test sees a few echoes with the delays the machine happens to have; the claim is about all delays and about every interleaving of the timer, the echoes and the loss of the link.", "anchors": ["concurrent_client/concurrent_client.cpp:check_delay", "concurrent_client/concurrent_client.cpp:handle_msg", "concurrent_client/concurrent_client.cpp:on_connect", "include/tcp/client_socket.h:force_shutdown"]}
{"id": "C110", "title": "Synchronous reception on links that are read only on demand", "statement": "With ST_ASIO_SYNC_RECV and ST_ASIO_PASSIVE_RECV, nothing is read from a link unless sync_recv_msg was called for it; every message received goes to exactly one caller or to on_msg_handle, in order; a caller that waits on an established link has a read outstanding, whose messages it gets; and if the program receives by sync_recv_msg only, all messages come through it and none goes to on_msg_handle.", "quantifier": "every interleaving of any number of callers (with or without a duration), the receiving strand, posted reads, completions with any messages or errors, establishment and loss of the link, close() and restarts, with spurious wake-ups", "why_tests_cant": "The outcome depends on where a call falls between start(), the establishment of the link and the completion of a read; the wrong ones need a call in a short window.", "anchors": ["include/socket.h:sync_recv_msg", "include/socket.h:recv_msg", "include/socket.h:do_start", "include/socket.h:handle_msg", "include/tcp/socket.h:do_recv_msg", "include/udp/socket.h:do_recv_msg", "udp_test/udp_test.cpp:sync_recv_thread"]}
{"id": "C111", "title": "Timers of the library, of derived classes and of users do not disturb each other", "statement": "If every class begins its timer IDs from TIMER_END of its super class, no two timers of an object share an ID, and IDs beginning from TIMER_END of a library class are none of the library's; and whatever is done with some timers of an object (creating, starting, stopping, changing, their expirations and their call backs) changes nothing about which other timers run and which of their call backs are invoked.", "quantifier": "every chain of classes derived from a class of the library with any numbers of timer IDs, every set of timers, every history of operations, expirations and call backs", "why_tests_cant": "Whether two timers disturb each other depends on every possible derived class and on every order of operations and expirations.", "anchors": ["include/timer.h:create_or_update_timer", "include/timer.h:find_timer", "include/timer.h:timer_handler", "include/timer.h:stop_all_timer", "include/socket.h:TIMER_END", "include/tcp/socket.h:TIMER_END", "include/tcp/client_socket.h:TIMER_END", "include/udp/reliable_socket.h:TIMER_END", "include/object_pool.h:TIMER_END"]}
{"id": "C112", "title": "Progress reported by file_client is true", "statement": "While a file is downloaded or uploaded over any number of links, the percentage file_client shows never falls and never exceeds 100, at least that part of the file is at its place in the destination, and once file_client reports the end the destination has the same content as the source.", "quantifier": "every file content, every number of links, every order in which chunks are sent, received and cut by the network, every point at which connections get lost or writing fails", "why_tests_cant": "The report and the data go different ways: the report is only wrong if a connection is lost or a write fails in a short window, and for which files and cuts is unbounded.", "anchors": ["file_common/file_buffer.h:file_buffer::read", "file_common/unpacker.h:file_unpacker::parse_msg", "file_client/file_client.h:file_client::update_progress_handler", "file_client/file_client.h:file_socket::on_msg_send"]}
{"id": "C113", "title": "Synchronous reception with a duration returns in time", "statement": "A call of sync_recv_msg with a duration that is not a DUPLICATE returns within the duration whatever happens to the link, even if the link is closed at the worst moment; TIMEOUT is returned exactly at the end of the duration and only if no messages have been offered to the caller; messages that have been offered to a caller are returned without further delay; without a duration TIMEOUT is never returned.", "quantifier": "every interleaving of callers, the receiving strand, close and restart, spurious wake-ups, every duration and every moment at which messages arrive", "why_tests_cant": "The dangerous moments (messages arriving at the very end of the duration, close between a test and the blocking) are too short to be hit by tests, and schedules are unbounded.", "anchors": ["include/socket.h:sync_recv_msg", "include/socket.h:sync_recv_waiting", "include/socket.h:handle_msg", "include/socket.h:close", "include/base.h:condition_variable::wait_for"]}
{"id": "C114", "title": "A synchronous send returns in time and answers truthfully", "statement": "A synchronous send that gives a duration returns within it, whatever happens to the link, to the message and to other calls. TIMEOUT is returned exactly at the end of the duration and only if the message was neither sent nor failed nor popped until then. As soon as the message has an outcome the call returns it; SUCCESS is returned only after the message was reported as sent, NOT_APPLICABLE to a caller that waited only after it was reported as failed or popped.", "quantifier": "every number of concurrent synchronous sends with any durations; every interleaving with writes, failures, pops, shrinks, resets, reconnections and the passing of time", "why_tests_cant": "interleavings, numbers of callers and durations are unbounded", "anchors": ["include/socket.h:do_direct_sync_send_msg", "include/tcp/socket.h:send_handler", "include/tcp/socket.h:on_close"]}
