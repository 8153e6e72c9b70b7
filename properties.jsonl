{"id": "C01", "title": "Remaining-length round trip", "statement": "A packet length below 2097152 written by the server in the MQTT variable-length format is read back as the same number, with every following byte left unread.", "quantifier": "every length n < 2^21 and every following byte sequence", "why_tests_cant": "two million lengths times arbitrary suffixes; boundaries 127/128, 16383/16384, 2097151 are easy to miss", "anchors": ["src/mqtt/transport/packet_encoder.rs: encode_remaining_length", "src/mqtt/transport/packet_decoder.rs: decode_remaining_length"]}
{"id": "C02", "title": "Remaining-length decoding is bounded", "statement": "Reading a length field consumes one to four bytes, yields a value of at most 2097151 without arithmetic overflow, and otherwise ends in a 'malformed' error (or end of stream); no length is ever silently truncated.", "quantifier": "every byte sequence a client can send", "why_tests_cant": "all byte sequences", "anchors": ["src/mqtt/transport/packet_decoder.rs: decode_remaining_length"]}
{"id": "C03", "title": "Every MQTT-legal packet length is accepted", "statement": "A client may send packets whose remaining length is anything up to 268435455 (four length bytes).", "quantifier": "every length n <= 268435455", "why_tests_cant": "needs every length; the violated range starts at 2 MiB", "anchors": ["src/mqtt/transport/packet_decoder.rs: decode_remaining_length"]}
{"id": "C04", "title": "Server packets follow the MQTT 3.1.1 wire format", "statement": "Every CONNACK, PUBLISH, PUBACK, PUBREC, PUBREL, PUBCOMP, SUBACK, UNSUBACK and PINGRESP the server writes is exactly the byte string MQTT 3.1.1 prescribes for it (type nibble, flags, minimal remaining length, fields in order).", "quantifier": "every packet the server can write, all ids, topics, payloads and return codes", "why_tests_cant": "unbounded packets", "anchors": ["src/mqtt/transport/packet_encoder.rs: write_packet, write_conn_ack, write_publish, write_sub_ack, write_unsub_ack, write_ping_resp, write_packet_with_packet_id"]}
{"id": "C05", "title": "PUBLISH round trip", "statement": "A PUBLISH packet written by the server and read by the decoder gives the same topic, payload, QoS, retain flag, dup flag and packet id.", "quantifier": "every PUBLISH with topic of at most 65535 bytes, packet id present exactly when QoS > 0, total length below 2^21, and every following byte sequence", "why_tests_cant": "unbounded topics, payloads and flag combinations", "anchors": ["src/mqtt/transport/packet_encoder.rs: write_publish", "src/mqtt/transport/packet_decoder.rs: decode_publish, read_packet"]}
{"id": "C06", "title": "Relayed PUBLISH is faithful", "statement": "Whatever bytes a client sends that the broker accepts as a PUBLISH, the bytes the broker writes to a subscriber decode to the very same PUBLISH, and are byte-identical to what was received whenever the client used the minimal length encoding.", "quantifier": "every input byte sequence accepted as a PUBLISH", "why_tests_cant": "all inputs", "anchors": ["src/mqtt/transport/packet_decoder.rs: decode_publish", "src/mqtt/transport/packet_encoder.rs: write_publish", "src/broker/client_packet_handler.rs: ClientPacketHandler::on_publish"]}
{"id": "C07", "title": "Legal client packets are decoded as sent", "statement": "For every legal CONNECT without a will and whose password, if any, is text (UTF-8), PUBLISH, PUBACK, PUBREC, PUBREL, PUBCOMP, SUBSCRIBE, UNSUBSCRIBE, PINGREQ and DISCONNECT laid out as MQTT 3.1.1 prescribes, the decoder returns exactly that packet and leaves exactly the bytes that follow it.", "quantifier": "every such packet of remaining length below 2^21 and every following byte sequence", "why_tests_cant": "unbounded packets and suffixes", "anchors": ["src/mqtt/transport/packet_decoder.rs: read_packet, decode_connect, decode_publish, decode_subscribe, decode_unsubscribe"]}
{"id": "C08", "title": "Packet framing", "statement": "The bytes of any sequence of legal client packets as in C07 (no wills, passwords that are text), back to back, decode to exactly that sequence of packets.", "quantifier": "every finite sequence of such packets, each of remaining length below 2^21", "why_tests_cant": "sequences of unbounded length", "anchors": ["src/mqtt/transport/packet_decoder.rs: read_packet", "src/mqtt/listener.rs: connection_read_loop"]}
{"id": "C09", "title": "CONNECT with a will is decoded", "statement": "A legal CONNECT that carries a will topic and will message is decoded with that will, user name and password.", "quantifier": "every legal CONNECT with the will flag", "why_tests_cant": "flag and field combinations over unbounded strings", "anchors": ["src/mqtt/transport/packet_decoder.rs: decode_connect"]}
{"id": "C10", "title": "Malformed packets are rejected", "statement": "A SUBSCRIBE, UNSUBSCRIBE, PUBACK, PUBREC, PUBREL or PUBCOMP with wrong fixed-header flags, a SUBSCRIBE or UNSUBSCRIBE with no payload, a SUBSCRIBE with a QoS above 2, or a string that is not UTF-8 never produces a packet.", "quantifier": "every byte sequence with such a defect", "why_tests_cant": "all byte sequences", "anchors": ["src/mqtt/transport/packet_decoder.rs: validate_first_byte, decode_subscribe, decode_unsubscribe", "src/mqtt/transport/mqtt_bytes_stream.rs: get_string"]}
{"id": "C11", "title": "Decoding never panics", "statement": "No byte sequence from a client makes the decoder panic (it returns a packet or an error).", "quantifier": "every byte sequence, both overflow-check build profiles", "why_tests_cant": "all byte sequences", "anchors": ["src/mqtt/transport/packet_decoder.rs: read_packet, decode_publish, decode_subscribe, decode_unsubscribe", "src/mqtt/packets/mod.rs: QoS::from_bits"]}
{"id": "C12", "title": "Packet boundaries are respected", "statement": "Whenever the decoder returns a packet it has consumed exactly the fixed header plus the number of bytes its remaining length announced.", "quantifier": "every byte sequence that decodes to a packet", "why_tests_cant": "all byte sequences", "anchors": ["src/mqtt/transport/packet_decoder.rs: read_packet and the decode_* functions"]}
{"id": "C13", "title": "TCP fragmentation does not change what is decoded", "statement": "However TCP splits a client's bytes into reads, reading a packet gives the same result as if all bytes had arrived at once, unless the reader stops making progress.", "quantifier": "every byte stream, every split into reads, every allocation policy of the buffer, every stream ending", "why_tests_cant": "all fragmentations", "anchors": ["src/mqtt/transport/mqtt_bytes_stream.rs: MqttBytesReadStream::wait_for_data, get_bytes, get_u8, get_u16, get_string", "src/mqtt/transport/packet_decoder.rs: read_packet"]}
{"id": "C14", "title": "The reader always makes progress", "statement": "Given enough bytes from the client, reading a packet finishes (with a packet, an error or a panic): it does not spin forever.", "quantifier": "every byte stream and every split into reads", "why_tests_cant": "non-termination on some stream positions cannot be observed by finitely many tests", "anchors": ["src/mqtt/transport/mqtt_bytes_stream.rs: MqttBytesReadStream::get_bytes"]}
{"id": "C15", "title": "Large messages are received", "statement": "A PUBLISH whose payload exceeds the 4096-byte read buffer is received and forwarded like any other.", "quantifier": "every payload size, every position in the stream, every split into reads", "why_tests_cant": "all sizes and positions", "anchors": ["src/mqtt/transport/mqtt_bytes_stream.rs: MqttBytesReadStream::get_bytes", "src/mqtt/listener.rs: handle_connection"]}
{"id": "C16", "title": "The writer loses, repeats and reorders nothing", "statement": "At every moment the bytes handed to the socket followed by the bytes still buffered are exactly the concatenation of the wire encodings of the packets written so far, however the socket splits the writes.", "quantifier": "every sequence of packets, every schedule of partial writes, every buffer size and allocation policy", "why_tests_cant": "all partial-write schedules", "anchors": ["src/mqtt/transport/mqtt_bytes_stream.rs: MqttBytesWriteStream::put_u8, put_u16, put_string, put_bytes, finish_packet, write_buffer_if_too_small", "src/mqtt/transport/packet_encoder.rs: write_packet"]}
{"id": "C17", "title": "The writer always terminates", "statement": "Writing a supported packet never spins forever and never panics, for packets of any size.", "quantifier": "every supported packet, every writer state reachable by writing packets, every schedule of partial writes", "why_tests_cant": "all states and schedules", "anchors": ["src/mqtt/transport/mqtt_bytes_stream.rs: MqttBytesWriteStream::put_bytes", "src/mqtt/transport/packet_encoder.rs: write_packet"]}
{"id": "C18", "title": "A written packet reaches the socket", "statement": "When writing a packet returns successfully, all bytes of the packet have been handed to the socket.", "quantifier": "every packet and every schedule of partial writes", "why_tests_cant": "all partial-write schedules", "anchors": ["src/mqtt/transport/mqtt_bytes_stream.rs: MqttBytesWriteStream::finish_packet"]}
{"id": "C19", "title": "Subscription matching", "statement": "A message on a topic goes to a client once for each of the client's current subscriptions whose filter matches the topic: literal levels match themselves, '+' matches one level, a final '#' matches one or more remaining levels; and to no other client.", "quantifier": "every history of subscribe, unsubscribe and disconnect calls, every topic without wildcard characters, every client", "why_tests_cant": "all histories and topics", "anchors": ["src/broker/messaging/subscriptions_repository.rs: SubscriptionsRepository::subscribe, unsubscribe, disconnected, connections_lost, subscribed_clients"]}
{"id": "C20", "title": "'#' also matches the parent level", "statement": "A subscription to 'a/#' also receives messages published to 'a' (MQTT 3.1.1 4.7.1.2).", "quantifier": "every filter ending in '/#'", "why_tests_cant": "all filters and topics", "anchors": ["src/broker/messaging/subscriptions_repository.rs: subscribed_clients"]}
{"id": "C21", "title": "Wildcards do not match $-topics", "statement": "A filter starting with '+' or '#' does not receive messages on topics whose first level starts with '$' (MQTT 3.1.1 4.7.2).", "quantifier": "every such filter and topic", "why_tests_cant": "all filters and topics", "anchors": ["src/broker/messaging/subscriptions_repository.rs: subscribed_clients"]}
{"id": "C22", "title": "Re-subscribing replaces the subscription", "statement": "Subscribing twice to the same filter leaves the client with one subscription: it gets each message once.", "quantifier": "every history", "why_tests_cant": "all histories", "anchors": ["src/broker/messaging/subscriptions_repository.rs: subscribe"]}
{"id": "C23", "title": "Unsubscribing stops delivery", "statement": "After a client unsubscribes from a filter, that filter no longer causes any message to be delivered to it.", "quantifier": "every history and topic", "why_tests_cant": "all histories", "anchors": ["src/broker/messaging/subscriptions_repository.rs: unsubscribe"]}
{"id": "C24", "title": "Disconnecting removes all subscriptions", "statement": "After a client's disconnect, no topic is delivered to that client because of an earlier subscription.", "quantifier": "every history and topic", "why_tests_cant": "all histories", "anchors": ["src/broker/messaging/subscriptions_repository.rs: disconnected, connections_lost, remove_client", "src/broker/messaging/messaging_service.rs: disconnect, connection_lost"]}
{"id": "C25", "title": "Subscription isolation", "statement": "Subscribing, unsubscribing or disconnecting one client never changes what another client receives, on any topic.", "quantifier": "every repository state reachable, every operation, every topic", "why_tests_cant": "all histories", "anchors": ["src/broker/messaging/subscriptions_repository.rs: subscribe, unsubscribe, remove_client"]}
{"id": "C26", "title": "Subscriptions of different clients commute", "statement": "The order in which two different clients' subscription requests are processed does not affect who receives what.", "quantifier": "every history, every two operations of different clients", "why_tests_cant": "all interleavings", "anchors": ["src/broker/messaging/subscriptions_repository.rs: subscribe, unsubscribe, disconnected"]}
{"id": "C27", "title": "Unsubscribing from an unknown filter has no effect", "statement": "Unsubscribing from a filter the client is not subscribed to changes nothing that any client receives.", "quantifier": "every reachable state, filter, client and topic", "why_tests_cant": "all histories", "anchors": ["src/broker/messaging/subscriptions_repository.rs: unsubscribe"]}
{"id": "C28", "title": "Topic names with wildcards are not published", "statement": "A PUBLISH whose topic contains '+' or '#' is rejected and delivered to nobody (MQTT 3.1.1 3.3.2-2).", "quantifier": "every such topic", "why_tests_cant": "all topics", "anchors": ["src/broker/messaging/subscriptions_repository.rs: subscribed_clients", "src/mqtt/transport/packet_decoder.rs: decode_publish", "src/broker/client_packet_handler.rs: on_publish"]}
{"id": "C29", "title": "SUBACK answers SUBSCRIBE", "statement": "Each SUBSCRIBE on a live connection is answered, to the sending connection only, by exactly one SUBACK with the same packet id and exactly one return code (granted QoS 0) per requested filter.", "quantifier": "every broker state and every SUBSCRIBE", "why_tests_cant": "all states and packets", "anchors": ["src/broker/client_packet_handler.rs: on_subscribe", "src/broker/messaging/messaging_service.rs: subscribe"]}
{"id": "C30", "title": "UNSUBACK answers UNSUBSCRIBE", "statement": "Each UNSUBSCRIBE on a live connection is answered, to the sending connection only, by exactly one UNSUBACK with the same packet id; and it takes effect: if it names every filter of the client that matches a topic, and the client holds each of these once, the client gets no message on that topic any more.", "quantifier": "every broker state and every UNSUBSCRIBE", "why_tests_cant": "all states and packets", "anchors": ["src/broker/client_packet_handler.rs: on_unsubscribe"]}
{"id": "C31", "title": "PINGREQ", "statement": "A PINGREQ from a client with a session gets exactly one PINGRESP; without a session the connection is told to close and gets no PINGRESP; broker state is unchanged.", "quantifier": "every broker state and client", "why_tests_cant": "all states", "anchors": ["src/broker/client_packet_handler.rs: on_ping_req", "src/broker/messaging/messaging_service.rs: session_exists"]}
{"id": "C32", "title": "PUBLISH fan-out", "statement": "Each PUBLISH is sent, unmodified (topic, payload, QoS, retain, dup, packet id), to the current connection of each client that has a session, as many times as that client has matching subscriptions, and to no other connection; the broker's sessions and subscriptions are unchanged and nothing is sent to the publisher as such.", "quantifier": "every broker history and every PUBLISH", "why_tests_cant": "all histories and packets", "anchors": ["src/broker/client_packet_handler.rs: on_publish", "src/broker/messaging/messaging_service.rs: senders_to_publish"]}
{"id": "C33", "title": "Wrong credentials are refused", "statement": "A CONNECT with a user name and password that do not authenticate gets CONNACK 'not authorized' followed by a close request, creates no session and changes no state.", "quantifier": "every broker state, credentials and identity provider", "why_tests_cant": "all states and credentials", "anchors": ["src/broker/client_packet_handler.rs: on_connect", "src/broker/authentication.rs: IdentityProvider::authenticate"]}
{"id": "C34", "title": "Good credentials are accepted", "statement": "A CONNECT whose credentials authenticate (or which has no user name) gets exactly one CONNACK 'accepted', and a session bound to its connection exists afterwards.", "quantifier": "every broker state and CONNECT", "why_tests_cant": "all states", "anchors": ["src/broker/client_packet_handler.rs: on_connect", "src/broker/messaging/messaging_service.rs: session_insert"]}
{"id": "C35", "title": "A refused client cannot act", "statement": "After its credentials were refused, nothing a connection sends has any effect on sessions, subscriptions or other clients.", "quantifier": "every history", "why_tests_cant": "all histories of hostile packets", "anchors": ["src/broker/client_packet_handler.rs: on_packet, on_publish, on_subscribe, on_disconnect", "src/mqtt/listener.rs: connection_read_loop"]}
{"id": "C36", "title": "One session per client id, newest connection wins", "statement": "At any time there is at most one session per client id, stored under its own client id; messages for a client id go to the connection of the most recent accepted CONNECT with that id since its last disconnect.", "quantifier": "every history of events", "why_tests_cant": "all histories", "anchors": ["src/broker/session/session_repository.rs: InMemorySessionRepository::insert, delete", "src/broker/client_packet_handler.rs: on_connect"]}
{"id": "C37", "title": "Session takeover closes the old connection", "statement": "When a second connection connects with a client id already in use, the first connection is closed and can no longer act for that client id (MQTT 3.1.1 3.1.4-2).", "quantifier": "every history", "why_tests_cant": "all histories", "anchors": ["src/broker/client_packet_handler.rs: on_connect, on_disconnect"]}
{"id": "C38", "title": "Persistent sessions", "statement": "A client reconnecting with clean session off finds its stored subscriptions, and CONNACK says 'session present'.", "quantifier": "every history", "why_tests_cant": "all histories", "anchors": ["src/broker/client_packet_handler.rs: on_connect", "src/broker/messaging/messaging_service.rs: run (SessionGet), disconnect"]}
{"id": "C39", "title": "QoS 1 and 2 publishes are acknowledged", "statement": "A PUBLISH with QoS 1 is answered by PUBACK, with QoS 2 by PUBREC, with the same packet id.", "quantifier": "every state and PUBLISH with QoS > 0", "why_tests_cant": "all states and packets", "anchors": ["src/broker/client_packet_handler.rs: on_publish, on_packet"]}
{"id": "C40", "title": "Delivered QoS does not exceed the granted QoS", "statement": "A message is delivered with at most the QoS granted in the SUBACK of the subscription.", "quantifier": "every history", "why_tests_cant": "all histories", "anchors": ["src/broker/client_packet_handler.rs: on_publish, on_subscribe"]}
{"id": "C41", "title": "Retained messages", "statement": "A message published with the retain flag is delivered to later subscribers of its topic.", "quantifier": "every history", "why_tests_cant": "all histories", "anchors": ["src/broker/client_packet_handler.rs: on_publish, on_subscribe"]}
{"id": "C42", "title": "Second CONNECT on a connection", "statement": "A second CONNECT on a connection is a protocol violation: the connection is closed (MQTT 3.1.0-2).", "quantifier": "every history", "why_tests_cant": "all histories", "anchors": ["src/broker/client_packet_handler.rs: on_packet"]}
{"id": "C43", "title": "No client packet crashes the broker", "statement": "No sequence of client packets makes the packet handler task panic.", "quantifier": "every history of events and every schedule of the connection tasks", "why_tests_cant": "all histories and schedules", "anchors": ["src/broker/client_packet_handler.rs: on_connect, on_packet, on_subscribe, on_unsubscribe, on_ping_req, on_publish"]}
{"id": "C44", "title": "Delivering a PUBLISH never crashes the broker", "statement": "Fan-out of a PUBLISH never hits a closed subscriber channel, whatever connections were closed, refused or replaced before.", "quantifier": "every schedule and history of the whole system", "why_tests_cant": "all schedules", "anchors": ["src/broker/client_packet_handler.rs: on_publish", "src/mqtt/listener.rs: connection_write_loop"]}
{"id": "C45", "title": "A crashed handler serves nobody", "statement": "Once the packet handler has crashed, no later step of the system delivers anything new to any connection's queue (documents the blast radius of C43).", "quantifier": "every continuation schedule", "why_tests_cant": "all continuations", "anchors": ["src/broker/client_packet_handler.rs: run", "src/application.rs: run"]}
{"id": "C46", "title": "Nothing happens before CONNECT", "statement": "A connection whose first packet is not a CONNECT (or is malformed) produces no event, is never answered and never affects the broker.", "quantifier": "every byte stream", "why_tests_cant": "all byte streams", "anchors": ["src/mqtt/listener.rs: connection_read_loop"]}
{"id": "C47", "title": "Connection identity", "statement": "All events of one connection carry the client id of its CONNECT (or one generated id if that was empty); exactly the first event is 'connected', all others are packets.", "quantifier": "every byte stream and fragmentation", "why_tests_cant": "all byte streams", "anchors": ["src/mqtt/listener.rs: connection_read_loop"]}
{"id": "C48", "title": "End-to-end linearizability", "statement": "In every execution there is one sequential order of the packets the clients sent, containing a prefix of each connection's decoded packets in the order sent, such that what each connection has received is a prefix of what a simple sequential broker sends it for that order.", "quantifier": "every number of connections, every input, fragmentation, partial-write schedule and task interleaving", "why_tests_cant": "all interleavings", "anchors": ["src/mqtt/listener.rs: connection_read_loop, connection_write_loop", "src/broker/client_packet_handler.rs: run", "src/broker/messaging/messaging_service.rs: run"]}
{"id": "C49", "title": "Per-publisher message order", "statement": "Two messages one connection publishes are delivered to a connection in the order they were published.", "quantifier": "every execution", "why_tests_cant": "all interleavings", "anchors": ["src/mqtt/listener.rs: connection_read_loop, connection_write_loop", "src/broker/client_packet_handler.rs: on_publish"]}
{"id": "C50", "title": "No invented messages", "statement": "Every PUBLISH queued for a connection was sent by some client connection that connected first, and the receiving client had a matching subscription and a session at that point.", "quantifier": "every execution", "why_tests_cant": "all interleavings", "anchors": ["src/broker/client_packet_handler.rs: on_publish", "src/broker/messaging/messaging_service.rs: senders_to_publish"]}
{"id": "C51", "title": "Queues are bounded", "statement": "No event queue ever holds more than 32 elements: neither the broker's input queue nor any connection's output queue.", "quantifier": "every execution", "why_tests_cant": "all interleavings", "anchors": ["src/application.rs: run (mpsc::channel(32))", "src/mqtt/listener.rs: handle_connection (mpsc::channel(32))"]}
{"id": "C52", "title": "A slow subscriber does not stall others", "statement": "A subscriber that stops reading its socket does not prevent the broker from serving other clients.", "quantifier": "every execution", "why_tests_cant": "starvation is a statement about all continuations", "anchors": ["src/broker/client_packet_handler.rs: on_publish", "src/mqtt/listener.rs: connection_write_loop"]}
{"id": "C53", "title": "No deadlock", "statement": "While the handler is alive, no writer is blocked on its socket and some input or queued work remains, some task can take a step that changes the state.", "quantifier": "every reachable state", "why_tests_cant": "all reachable states", "anchors": ["src/broker/client_packet_handler.rs: run", "src/mqtt/listener.rs: connection_read_loop, connection_write_loop", "src/broker/messaging/messaging_service.rs: run"]}
{"id": "C54", "title": "A lost connection is cleaned up", "statement": "When a client's TCP connection ends without DISCONNECT, its session and subscriptions are removed.", "quantifier": "every execution", "why_tests_cant": "all executions", "anchors": ["src/mqtt/listener.rs: connection_read_loop", "src/broker/client_packet_handler.rs: on_connection_lost", "src/broker/messaging/messaging_service.rs: connection_lost"]}
{"id": "C55", "title": "Shutdown", "statement": "After ctrl-c the packet handler stops.", "quantifier": "every execution", "why_tests_cant": "liveness over all continuations", "anchors": ["src/broker/client_packet_handler.rs: run", "src/application.rs: run"]}
{"id": "C56", "title": "Password file loading", "statement": "The password file is accepted exactly when each of its lines contains ':'; the resulting credential of a user is the text after the first ':' of the last line whose text before the first ':' is that user name.", "quantifier": "every file content", "why_tests_cant": "all file contents", "anchors": ["src/broker/authentication.rs: FileIdentityManager::new"]}
{"id": "C57", "title": "Authentication decision", "statement": "authenticate(user, password) succeeds exactly when the user has an entry in the file and the entry's hash parses and verifies the password; an unknown user is reported as such.", "quantifier": "every file, user, password, hash function", "why_tests_cant": "all inputs", "anchors": ["src/broker/authentication.rs: FileIdentityManager::authenticate"]}
{"id": "C58", "title": "Authentication is mandatory", "statement": "A client that presents no credentials cannot open a session when a password file is configured.", "quantifier": "every CONNECT without user name", "why_tests_cant": "all states", "anchors": ["src/broker/client_packet_handler.rs: on_connect"]}
{"id": "C59", "title": "Setting a password works", "statement": "After 'ratelmq-passwd -u U -p P', the broker loading the file authenticates U with P.", "quantifier": "every well-formed password file, user and password", "why_tests_cant": "all files, including names that contain each other", "anchors": ["ratelmq-passwd/src/main.rs: main, build_entry", "src/broker/authentication.rs: FileIdentityManager"]}
{"id": "C60", "title": "Setting a password leaves other users alone", "statement": "After setting U's password every other user's stored credential is unchanged.", "quantifier": "every well-formed password file", "why_tests_cant": "all files", "anchors": ["ratelmq-passwd/src/main.rs: main"]}
{"id": "C61", "title": "Deleting a user works", "statement": "After 'ratelmq-passwd -u U -d', U has no entry and all other users' entries are unchanged.", "quantifier": "every well-formed password file", "why_tests_cant": "all files", "anchors": ["ratelmq-passwd/src/main.rs: main"]}
{"id": "C62", "title": "Hashes are written verbatim", "statement": "The '$' signs of a password hash survive the regular-expression replacement: the new entry appears in the file literally.", "quantifier": "every replacement text", "why_tests_cant": "all texts", "anchors": ["ratelmq-passwd/src/main.rs: main (replace(\"$\", \"$$\"))"]}
{"id": "C63", "title": "Keep-alive threshold", "statement": "A session is reported expired exactly when its keep-alive is non-zero and at least floor(1.5 x keep-alive) seconds have passed since its last activity.", "quantifier": "all keep-alives 0..65535 and all instants", "why_tests_cant": "all values; float rounding", "anchors": ["src/broker/session/session_entity.rs: Session::is_keep_alive_expired"]}
{"id": "C64", "title": "Keep-alive expiry is monotone", "statement": "Once expired without activity a session stays expired; activity at time t makes it unexpired until t + floor(1.5 k); keep-alive 0 never expires.", "quantifier": "all instants", "why_tests_cant": "all values", "anchors": ["src/broker/session/session_entity.rs: Session::is_keep_alive_expired, set_last_activity"]}
{"id": "C65", "title": "Keep-alive is enforced", "statement": "A client silent for more than 1.5 times its keep-alive is disconnected.", "quantifier": "every execution", "why_tests_cant": "all executions", "anchors": ["src/broker/keepalive_checker.rs", "src/broker/messaging/messaging_service.rs: run (SessionGetExpiredKeepAlive)"]}
{"id": "C66", "title": "Session bookkeeping", "statement": "The session count reported equals the number of distinct client ids that are connected: accepted CONNECTs add, DISCONNECT and connection loss remove, nothing else changes it; 'exists' agrees with it.", "quantifier": "every history of messaging operations", "why_tests_cant": "all histories", "anchors": ["src/broker/messaging/messaging_service.rs: run, session_insert, disconnect, connection_lost, session_count, session_exists", "src/broker/session/session_repository.rs: InMemorySessionRepository"]}
{"id": "C67", "title": "The messaging Publish operation delivers", "statement": "Sending the Publish operation to the messaging service delivers the message to the matching sessions before it is acknowledged.", "quantifier": "every service state", "why_tests_cant": "all states", "anchors": ["src/broker/messaging/messaging_service.rs: run (MessagingOperation::Publish), publish"]}
{"id": "C68", "title": "A failed login reveals only refusal", "statement": "The answer to a CONNECT that fails to authenticate is the same whether the user is unknown, the password is wrong or the stored hash is corrupt.", "quantifier": "every state, file, user and password", "why_tests_cant": "all inputs", "anchors": ["src/broker/client_packet_handler.rs: on_connect", "src/broker/authentication.rs: authenticate"]}
{"id": "C69", "title": "Topic levels", "statement": "Splitting a topic at '/' loses nothing: joining the levels with '/' gives the topic back, no level contains '/', and different topics give different level lists; so subscriptions to different filters are never confused.", "quantifier": "every topic", "why_tests_cant": "all topics", "anchors": ["src/broker/messaging/subscriptions_repository.rs: subscribe, subscribed_clients (split)"]}
{"id": "C70", "title": "Failed writes do not corrupt the stream", "statement": "If writing a packet fails with an I/O error, later packets on that connection still start at a packet boundary.", "quantifier": "every error position", "why_tests_cant": "all error positions", "anchors": ["src/mqtt/transport/packet_encoder.rs: write_packet", "src/mqtt/listener.rs: connection_write_loop"]}
{"id": "C71", "title": "CONNACK comes first", "statement": "The first packet the broker sends on a connection is a CONNACK, and no other CONNACK ever follows on that connection. Unless a write to the socket failed, the first four bytes the peer receives are a beginning of 20 02 00 00 or 20 02 00 05.", "quantifier": "every execution with any number of connections, any bytes, any schedule", "why_tests_cant": "all interleavings of all clients", "anchors": ["src/broker/client_packet_handler.rs: on_connect", "src/mqtt/listener.rs: connection_read_loop, connection_write_loop"]}
{"id": "C72", "title": "Acknowledgements in order", "statement": "The SUBACKs and UNSUBACKs sent on a connection are, in order and without gaps or additions, the answers (same packet identifier, one return code 0 per filter) to the SUBSCRIBEs and UNSUBSCRIBEs of that connection handled so far; when the handler is at rest none is missing.", "quantifier": "every execution", "why_tests_cant": "all interleavings; other clients' traffic between request and answer", "anchors": ["src/broker/client_packet_handler.rs: on_subscribe, on_unsubscribe"]}
{"id": "C73", "title": "A message reaches every matching subscriber", "statement": "When the handler is at rest, every message it has taken has been sent to every connection on which, when the message was taken, a client holding a matching subscription was reached; if that connection is still being written to, the message has been written or waits in its queue.", "quantifier": "every execution that is at rest, every message, every subscriber", "why_tests_cant": "all executions and subscription histories", "anchors": ["src/broker/client_packet_handler.rs: on_publish", "src/broker/messaging/messaging_service.rs: senders_to_publish"]}
{"id": "C74", "title": "A refused client hears nothing", "statement": "A connection whose CONNECT is not accepted is never sent a message, whatever it or the other clients send before or after.", "quantifier": "every execution, every refused CONNECT", "why_tests_cant": "all executions", "anchors": ["src/broker/client_packet_handler.rs: on_connect", "src/broker/messaging/messaging_service.rs"]}
{"id": "C75", "title": "Silence after DISCONNECT", "statement": "Once the broker has dealt with a DISCONNECT of a connection, no message is sent on that connection in any continuation of the execution.", "quantifier": "every execution and every continuation", "why_tests_cant": "all continuations", "anchors": ["src/broker/client_packet_handler.rs: on_disconnect", "src/broker/messaging/messaging_service.rs: disconnect"]}
{"id": "C76", "title": "Nothing is processed after DISCONNECT", "statement": "After the DISCONNECT of a client, packets sent on the same connection have no effect on other clients and the connection is closed (MQTT-3.14.4-1/2).", "quantifier": "every execution", "why_tests_cant": "all orders of packets after the DISCONNECT", "anchors": ["src/broker/client_packet_handler.rs: on_disconnect", "src/mqtt/listener.rs: connection_read_loop"]}
{"id": "C77", "title": "Exactly which orders of events can be served", "statement": "Whatever the clients send (well-formed packets or anything else, any number of bytes), if their sockets take enough writes, the broker can handle a given sequence of events, in this order, and come to rest, if and only if: for each connection the events are a beginning of what can be received from it (all its packets, if it brings fewer than 4096 bytes), no CONNECT has a user name and no password, and no connection is sent more than 31 things after being told to go away. In such an execution each connection is sent exactly what a sequential broker would send, and all of it up to a request to go away is written. So clients cannot rely on any order between connections, and no such order blocks the broker.", "quantifier": "all inputs of any length, all sequences of events, all schedules", "why_tests_cant": "all interleavings", "anchors": ["src/mqtt/listener.rs: connection_read_loop", "src/broker/client_packet_handler.rs: run"]}
{"id": "C78", "title": "The broker comes to rest", "statement": "With finitely many connections bringing finitely many bytes, in every endless execution the state of the broker changes only finitely often: from some point on nothing changes any more, whatever the schedule, also when clients misbehave.", "quantifier": "every environment, all inputs of finitely many connections, every endless schedule", "why_tests_cant": "endless executions, all schedules", "anchors": ["src/mqtt/listener.rs: connection_read_loop, connection_write_loop", "src/broker/client_packet_handler.rs: run"]}
{"id": "C79", "title": "Everything is handled in the end", "statement": "If every task gets its turn again and again, then in the end one of these holds: the handler has crashed, on one of the events known to be fatal; it was stopped by ctrl-c; it waits for ever for a connection whose socket accepts no more bytes; or it is idle with nothing on its way, and every packet that can be decoded from a connection (unless its reader spins) has been handled, in order.", "quantifier": "every environment, all inputs, every fair schedule", "why_tests_cant": "endless executions, all fair schedules", "anchors": ["src/mqtt/listener.rs: connection_read_loop, connection_write_loop", "src/broker/client_packet_handler.rs: run"]}
{"id": "C80", "title": "Everything is delivered in the end", "statement": "If every CONNECT is accepted, nobody pings or nobody disconnects, no write fails and the sockets accept enough bytes, ctrl-c is not pressed and every task gets its turn again and again, then in the end all packets of all connections that can be received through the read buffer (all packets, if the connection brings fewer than 4096 bytes) have been handled, and each connection has been sent exactly the bytes of what a sequential broker sends for the packets in the order handled (up to the order to disconnect, if any); they are on the wire or in the write buffer.", "quantifier": "all inputs within these limits, all splittings of the bytes, every fair schedule", "why_tests_cant": "endless executions, all fair schedules and fragmentations", "anchors": ["src/mqtt/listener.rs: connection_read_loop, connection_write_loop", "src/broker/client_packet_handler.rs: run", "src/mqtt/transport/mqtt_bytes_stream.rs: MqttBytesWriteStream"]}
{"id": "C81", "title": "Finite input causes bounded traffic", "statement": "For given input of finitely many connections there is a bound, the same for all schedules, all splittings of the bytes and whatever the sockets do, on the number of events the broker handles and on the number of packets it sends to any connection: messages do not multiply without end.", "quantifier": "every environment and input, every schedule", "why_tests_cant": "all schedules", "anchors": ["src/broker/client_packet_handler.rs: on_publish"]}
{"id": "C82", "title": "The whole process behaves as a sequential broker", "statement": "Whatever the process does - accepting connections, running tasks on any number of worker threads, being stopped - there is one sequence of client events, made up of a beginning of what the bytes of each accepted connection stand for, such that each connection has been sent a beginning of what a sequential broker sends it for that sequence; connections not accepted are sent nothing. Conversely, every execution of the tasks on connections that can be read to their end (such as all that bring fewer than 4096 bytes) is one of the process.", "quantifier": "every number of worker threads and listeners, every input, every schedule", "why_tests_cant": "all interleavings of accepting, reading, handling, writing and shutdown", "anchors": ["src/application.rs: run", "src/mqtt/listener.rs: start_accepting, accept, handle_connection"]}
{"id": "C83", "title": "The process ends only on ctrl-c, and in order", "statement": "The process ends only if ctrl-c was pressed. If it ends without a panic then all listeners have stopped, the messaging task has ended and the packet handler has stopped between two events. If it ends with a panic then the packet handler had crashed on one of the events known to be fatal. After the end nothing changes any more.", "quantifier": "every number of worker threads and listeners, every input, every schedule", "why_tests_cant": "all interleavings of the shutdown with everything else", "anchors": ["src/application.rs: run", "src/broker/client_packet_handler.rs: run"]}
{"id": "C84", "title": "Ctrl-c ends the process", "statement": "If every task gets its turn again and again and ctrl-c is pressed, the process ends.", "quantifier": "every number of worker threads and listeners, every input, every fair schedule", "why_tests_cant": "endless executions", "anchors": ["src/application.rs: run", "src/mqtt/transport/mqtt_bytes_stream.rs: get_bytes"]}
{"id": "C85", "title": "When the packet handler crashes the process does not live on", "statement": "If the packet handler has crashed, the process ends, so that it can be restarted, instead of going on accepting connections it does not serve.", "quantifier": "every state with a crashed handler, every schedule", "why_tests_cant": "a statement about all continuations, also endless ones", "anchors": ["src/application.rs: run"]}
{"id": "C86", "title": "A few connections cannot stop the broker for everyone", "statement": "Whatever some connections send, the others are accepted and served (as far as the packet handler itself is not stopped, C43, C52).", "quantifier": "every input, every fair schedule, every number of worker threads", "why_tests_cant": "endless executions; depends on the number of worker threads", "anchors": ["src/main.rs: main", "src/mqtt/transport/mqtt_bytes_stream.rs: get_bytes", "src/mqtt/listener.rs: start_accepting, accept, handle_connection"]}
{"id": "C87", "title": "Nothing accepted is lost at shutdown", "statement": "When the process ends without a panic, all packets the broker had received and all packets it had queued for clients have been handled and written.", "quantifier": "every state, every schedule", "why_tests_cant": "all points in time at which ctrl-c can be pressed", "anchors": ["src/application.rs: run", "src/broker/client_packet_handler.rs: run", "src/mqtt/listener.rs: connection_write_loop"]}
{"id": "C88", "title": "The messaging service as a separate task makes no observable difference", "statement": "Requests to the messaging service travel through channels to a task of their own. Whatever clients see in such an execution they also see in one where every request is executed at once, and the other way round; so the events of clients take effect one at a time, in order.", "quantifier": "every schedule of all tasks, every input on any number of connections, every behaviour of sockets, every clock", "why_tests_cant": "all interleavings of requests, replies, reads and writes; both directions of a refinement", "anchors": ["src/broker/client_packet_handler.rs: run, on_connect, on_publish, on_subscribe, on_unsubscribe, on_ping_req", "src/broker/messaging/messaging_service.rs: run"]}
{"id": "C89", "title": "The packet handler neither fails on nor waits for ever for the messaging service", "statement": "Every request to the messaging service is answered. The packet handler never panics on its channel, and while it handles an event it waits for nothing but room in the queue of a connection it sends to.", "quantifier": "every reachable state, every schedule", "why_tests_cant": "depends on which task ends first and on all interleavings", "anchors": ["src/broker/client_packet_handler.rs: run, on_connect", "src/broker/messaging/messaging_service.rs: run", "src/application.rs: run"]}
{"id": "C90", "title": "Small messages are received however much was sent before", "statement": "On a connection that carried only legal packets, a legal PUBLISH of a few bytes is received, no matter how many bytes the client sent before.", "quantifier": "every sequence of earlier packets, every small message, every fragmentation, every build and library version", "why_tests_cant": "the failure needs a topic or payload to lie across one particular byte position of a long connection; the tests open a new connection for each packet", "anchors": ["src/mqtt/transport/mqtt_bytes_stream.rs: get_bytes, wait_for_data", "src/mqtt/listener.rs: handle_connection (buffer of 4096 bytes)"]}
{"id": "C91", "title": "Whether and what is received does not depend on how TCP splits the bytes", "statement": "Two deliveries of the same bytes to the broker, cut into segments in any two ways, give the same result: the same packets, the same error, or the same failure.", "quantifier": "every byte string (legal or not), every two fragmentations, every number of reads, every buffer size and build", "why_tests_cant": "all fragmentations of all byte strings; the difference shows only where an emptied buffer meets the end of its allocation", "anchors": ["src/mqtt/transport/mqtt_bytes_stream.rs: wait_for_data, get_u8, get_u16, get_bytes"]}
{"id": "C92", "title": "Exactly those connections are served on which every text and payload lies within one buffer window", "statement": "Filling a 4096-byte buffer window after window, a sequence of legal packets is received completely and correctly if no topic, name or payload lies across the end of a window; if one does, the reader spins.", "quantifier": "every sequence of legal packets without will, every fragmentation, every buffer size from 66 bytes, every build; releases of the library whose `advance` leaves an emptied view where it is", "why_tests_cant": "unbounded sequences of packets and both directions of an equivalence", "anchors": ["src/mqtt/transport/mqtt_bytes_stream.rs: wait_for_data, get_bytes", "src/mqtt/listener.rs: handle_connection (buffer of 4096 bytes)"]}
{"id": "C93", "title": "A client affects the others only through the messages it publishes", "statement": "Whatever some clients do - connect, log in or fail to, subscribe, unsubscribe, send acknowledgements, send nonsense, leave - what is written to every other connection is explained by what the others did together with the messages those clients published; if they publish nothing, by what the others did alone.", "quantifier": "every group of connections whose client ids no other connection uses, every bytes all peers send, every schedule of the whole process, every other connection", "why_tests_cant": "all behaviours of arbitrarily many other clients under all interleavings", "anchors": ["src/broker/client_packet_handler.rs", "src/broker/messaging/messaging_service.rs", "src/broker/messaging/subscriptions_repository.rs", "src/broker/session/session_repository.rs"]}
{"id": "C94", "title": "Memory for subscriptions is bounded by the subscriptions held", "statement": "The subscription tree holds only nodes needed for subscriptions that are in force; when everybody has left it is empty again.", "quantifier": "every execution of the system", "why_tests_cant": "growth over unbounded histories; every single behaviour observable by messages is correct", "anchors": ["src/broker/messaging/subscriptions_repository.rs: subscribe, unsubscribe, remove_client"]}
{"id": "C95", "title": "Relayed messages carry their own DUP and RETAIN flags", "statement": "A message sent to a subscriber because of a subscription that already existed has RETAIN 0, and DUP 0 on its first transmission, whatever the flags it was published with (MQTT-3.3.1-3, MQTT-3.3.1-9).", "quantifier": "every execution, every message, every subscriber", "why_tests_cant": "all executions of concurrent clients", "anchors": ["src/broker/client_packet_handler.rs: on_publish", "src/mqtt/packets/publish.rs"]}
{"id": "C96", "title": "Messages in flight to a client have distinct packet ids", "statement": "Messages with QoS above 0 sent to one client and not acknowledged by it have pairwise different packet ids, chosen by the broker (MQTT-2.3.1-2, MQTT-2.3.1-4).", "quantifier": "every execution, every connection", "why_tests_cant": "needs several publishers that happen to use the same ids, in all interleavings", "anchors": ["src/broker/client_packet_handler.rs: on_publish"]}
{"id": "C97", "title": "A QoS 2 message is delivered exactly once", "statement": "A QoS 2 PUBLISH that is retransmitted with the same packet id before PUBREL is delivered to each subscriber once (MQTT-4.3.3-2).", "quantifier": "every execution, every message", "why_tests_cant": "retransmission depends on timing and on what the publisher was sent", "anchors": ["src/broker/client_packet_handler.rs: on_publish", "src/broker/client_packet_handler.rs: on_packet"]}
{"id": "C98", "title": "Unsupported protocols are refused", "statement": "A CONNECT with another protocol name or level than those of MQTT 3.1.1, or with the reserved flag set, is not accepted (MQTT-3.1.2-1 to -3).", "quantifier": "every CONNECT", "why_tests_cant": "all names, levels and flag combinations", "anchors": ["src/mqtt/transport/packet_decoder.rs: decode_connect"]}
{"id": "C99", "title": "Invalid topic filters and topic names are rejected", "statement": "A SUBSCRIBE with an empty filter, a null character or a misplaced wildcard is not answered by success, and a PUBLISH with an empty topic or null characters is not relayed (MQTT-4.7.1-2, -3, MQTT-4.7.3-1, -2).", "quantifier": "every filter, every topic, every execution", "why_tests_cant": "all strings", "anchors": ["src/broker/messaging/subscriptions_repository.rs: subscribe", "src/broker/client_packet_handler.rs: on_subscribe, on_publish"]}
{"id": "C100", "title": "All subscribers receive messages in one common order", "statement": "There is a single order of all published messages, in which the messages of each publisher come as it sent them, such that every connection is sent its messages in this order. So if one subscriber gets a message before another, nobody gets them the other way round (unless one of them was sent twice).", "quantifier": "every number of clients, everything they send, every schedule, every point in time", "why_tests_cant": "a reversal shows in rare interleavings of concurrent publishers and subscribers only; the order has to explain all receivers at once", "anchors": ["src/broker/client_packet_handler.rs: on_publish", "src/broker/messaging/messaging_service.rs: run", "src/mqtt/listener.rs"]}
{"id": "C101", "title": "Messages are received in causal order", "statement": "If a message has reached some client while the broker has not yet dealt with the PUBLISH of another, then nobody ever receives the other message first. In particular an answer is never received before the message it answers.", "quantifier": "every two messages sent once, every receiver, every schedule and every continuation of it", "why_tests_cant": "speaks about all continuations of all executions", "anchors": ["src/broker/client_packet_handler.rs: on_publish"]}
{"id": "C102", "title": "What a client is sent depends only on its own packets and on the messages of others", "statement": "A client whose CONNECT is accepted and whose client id nobody else uses is sent exactly what a small machine puts out that knows the client's own subscriptions only, for the client's packets and the messages of others since its CONNECT in the order in which the broker takes them: CONNACK, then for each of its own SUBSCRIBEs a SUBACK, for each UNSUBSCRIBE an UNSUBACK, for each PINGREQ a PINGRESP, for each message the copies its filters call for.", "quantifier": "every behaviour of all other clients, every schedule, every point in time", "why_tests_cant": "all behaviours of all others, unboundedly many connections", "anchors": ["src/broker/client_packet_handler.rs", "src/broker/messaging/messaging_service.rs", "src/broker/messaging/subscriptions_repository.rs"]}
{"id": "C103", "title": "A client gets messages only while subscribed", "statement": "Take any message sent to a client with a client id of its own: the SUBACKs and UNSUBACKs sent before it answer a beginning of what the client has sent, this has no DISCONNECT, and after it the client is subscribed to a filter that the message matches. In particular no message comes before the first SUBACK, nor after the UNSUBACK of the only matching filter.", "quantifier": "every message sent to the client, all other clients, every schedule", "why_tests_cant": "absence of stray messages in all interleavings", "anchors": ["src/broker/client_packet_handler.rs: on_subscribe, on_unsubscribe, on_publish", "src/broker/messaging/subscriptions_repository.rs"]}
{"id": "C104", "title": "A SUBACK is a promise", "statement": "Once a client has been sent the SUBACK for a filter, every message matching the filter that the broker takes afterwards is sent to the client, until the client unsubscribes or disconnects.", "quantifier": "every earlier and later packet of the client, all other clients, every schedule, every later message", "why_tests_cant": "absence of losses in all interleavings", "anchors": ["src/broker/client_packet_handler.rs: on_subscribe, on_publish", "src/broker/messaging/subscriptions_repository.rs"]}
{"id": "C105", "title": "Which connections the broker closes", "statement": "The broker closes its side of a connection only if it refused the CONNECT, or was pinged on it for a client without session, or if the connection's input is over, all its packets are handled and no client is reached on it. If every task gets its turn again and again, then in the end it has closed exactly these, as far as their sockets take what is written.", "quantifier": "all inputs of all connections, every way TCP splits them, every (fair) schedule, every behaviour of the sockets", "why_tests_cant": "both a connection closed too early and one never closed depend on the order of events", "anchors": ["src/mqtt/listener.rs: connection_read_loop, connection_write_loop", "src/broker/client_packet_handler.rs: on_connect, on_ping_req, on_disconnect"]}
{"id": "C106", "title": "A protocol violation closes the connection", "statement": "When a client sends bytes that are no packet the broker closes the connection (MQTT-4.8.0-1).", "quantifier": "all packets before, all bytes that do not decode, every fair schedule", "why_tests_cant": "ranges over all malformed input and all states of the session", "anchors": ["src/mqtt/listener.rs: connection_read_loop, connection_write_loop", "src/broker/session/session_repository.rs"]}
{"id": "C107", "title": "After DISCONNECT and end of input nothing is left of a connection", "statement": "Once a client has sent DISCONNECT and closed its side, both tasks of its connection end and the connection is closed, whatever else it sent and whoever else uses its client id.", "quantifier": "all inputs of all connections, every fair schedule, every way TCP splits the bytes", "why_tests_cant": "a leak shows only in some interleavings, and only after long runs", "anchors": ["src/mqtt/listener.rs: connection_read_loop, connection_write_loop", "src/broker/client_packet_handler.rs: on_disconnect"]}
{"id": "C108", "title": "A refused client is told so and hung up on", "statement": "A connection whose CONNECT is refused is written the CONNACK \"not authorized\" and nothing else, and then closed.", "quantifier": "all that it sends after the CONNECT, all other clients, every fair schedule", "why_tests_cant": "what is sent later, in any interleaving, must not get through", "anchors": ["src/broker/client_packet_handler.rs: on_connect", "src/mqtt/listener.rs: connection_write_loop"]}
{"id": "C109", "title": "Reserved header flags", "statement": "A packet whose fixed header carries flags MQTT 3.1.1 does not allow for its type (2.2.2, also QoS 3 in a PUBLISH) is not accepted.", "quantifier": "For all first bytes, all bytes that follow, both builds and all ways the input may end.", "why_tests_cant": "The claim ranges over every first byte and every continuation; tests try a few malformed headers.", "anchors": ["src/mqtt/transport/packet_decoder.rs: read_packet, validate_first_byte, decode_publish"]}
{"id": "C110", "title": "Packet ids are not zero", "statement": "SUBSCRIBE, UNSUBSCRIBE and PUBLISH with QoS above 0 must have a non-zero packet id (2.3.1-1); the broker does not serve packets that break this and sends none itself.", "quantifier": "For all clients and peers, all topics and filters, all messages, all executions.", "why_tests_cant": "That the broker brings no packet id 0 into the world concerns every packet sent in every execution.", "anchors": ["src/mqtt/transport/packet_decoder.rs: decode_subscribe, decode_unsubscribe, decode_publish", "src/broker/client_packet_handler.rs: on_subscribe, on_publish"]}
{"id": "C111", "title": "A password needs a user name", "statement": "A CONNECT with a password but without a user name is a protocol violation (3.1.2-22) and is not accepted.", "quantifier": "For all such CONNECTs, all identity providers and, for what holds, all states of the broker.", "why_tests_cant": "That the password makes no difference concerns all broker states, identity providers and passwords.", "anchors": ["src/mqtt/transport/packet_decoder.rs: decode_connect", "src/broker/client_packet_handler.rs: on_connect"]}
{"id": "C112", "title": "Clients without client id", "statement": "A client that sends no client id gets one of its own under which it is served (3.1.3-6); if it does not ask for a clean session it is refused (3.1.3-8).", "quantifier": "For all executions, connections and CONNECTs with an empty client id.", "why_tests_cant": "Being reached on its own connection must hold after every interleaving with any number of other clients.", "anchors": ["src/mqtt/listener.rs: connection_read_loop", "src/broker/client_packet_handler.rs: on_connect"]}
{"id": "C113", "title": "Will messages", "statement": "If a client announced a will and its connection ends without DISCONNECT, the will is published (3.1.2-8); after a DISCONNECT it is not (3.1.2-10).", "quantifier": "For all CONNECTs with a will, all other clients and all executions.", "why_tests_cant": "That a message never arrives is a statement about all executions.", "anchors": ["src/mqtt/transport/packet_decoder.rs: decode_connect", "src/mqtt/listener.rs: connection_read_loop", "src/broker/messaging/messaging_service.rs"]}
{"id": "C114", "title": "Clients' acknowledgements have no effect", "statement": "PUBACK, PUBREC, PUBREL and PUBCOMP from clients change nothing: neither the broker's state nor what any client is sent.", "quantifier": "For all broker states, all acknowledgements, all executions and connections.", "why_tests_cant": "The claim compares every execution with one in which no acknowledgement was ever handled.", "anchors": ["src/broker/client_packet_handler.rs: on_packet"]}
{"id": "C115", "title": "All or nothing start", "statement": "The broker serves clients only once it listens on all addresses of its configuration; if one of them cannot be bound the process ends without having served anybody.", "quantifier": "For all lists of addresses, all clients, all outcomes of binding, all executions from the start of the process.", "why_tests_cant": "Whether somebody is served before a later bind fails depends on the interleaving of the main task with the listeners already spawned.", "anchors": ["src/application.rs: run", "src/mqtt/listener.rs: bind, start_accepting"]}
{"id": "C116", "title": "Starting depends on configuration and password file", "statement": "The broker opens its first port exactly if its settings can be loaded, the password file named there can be read, and every line of that file contains ':'.", "quantifier": "For all results of loading the settings, all file systems, all contents of the password file.", "why_tests_cant": "Password files are arbitrary texts.", "anchors": ["src/application.rs: run", "src/broker/client_packet_handler.rs: new", "src/broker/authentication.rs: new", "src/settings/mod.rs"]}
{"id": "C117", "title": "The started broker is the broker", "statement": "From its start on, whatever happens, the connections of the process see an execution of the broker; once ready, it is a process that listens on all its addresses, about which C82 to C87 speak; and every state of such a process can be reached by starting it.", "quantifier": "For all configurations, clients, numbers of worker threads, outcomes of binding, and executions.", "why_tests_cant": "A refinement between two transition systems over all executions.", "anchors": ["src/application.rs: run", "src/main.rs", "src/mqtt/listener.rs: bind, start_accepting"]}
{"id": "C118", "title": "Access follows the password file", "statement": "From the start of the process on, whoever is sent a CONNACK had sent a CONNECT, and is accepted exactly if that CONNECT names no user or a user and password that fit the password file.", "quantifier": "For all password files, hashing libraries, clients, schedules.", "why_tests_cant": "Joins the file format, the start of the broker and all interleavings of its tasks.", "anchors": ["src/broker/authentication.rs: new, authenticate", "src/broker/client_packet_handler.rs: on_connect", "src/application.rs: run"]}
{"id": "C119", "title": "Passwords set with the tool work", "statement": "After ratelmq-passwd has set a user's password, a broker started with the file accepts a client that connects with that user and password; after it has deleted a user, the broker starts and accepts no client that connects as that user.", "quantifier": "For all password files, users, passwords, hashing libraries, clients, schedules.", "why_tests_cant": "Joins the tool, the file format, the start of the broker and all interleavings of its tasks.", "anchors": ["ratelmq-passwd/src/main.rs: main", "src/broker/authentication.rs: new, authenticate", "src/broker/client_packet_handler.rs: on_connect", "src/application.rs: run"]}
{"id": "C120", "title": "One packet makes a bounded amount of work", "statement": "What the broker has to send and look up because of one packet of a client is bounded by the number of subscriptions held: one message makes at most one send per subscription and keeps at most the nodes of the subscription tree in hand, so no client can keep the broker busy with one packet for an unbounded time.", "quantifier": "For all executions, clients, subscriptions, topics and schedules.", "why_tests_cant": "The number of sends depends on the shape of subscriptions and topics together; a test tries a few small shapes, and the bad growth is exponential in the number of levels.", "anchors": ["src/broker/messaging/subscriptions_repository.rs: subscribed_clients", "src/broker/client_packet_handler.rs: on_publish, run"]}
{"id": "C121", "title": "Pieces are bounded by the read buffer", "statement": "No text (client id, user name, password, topic, filter) and no message longer than 4096 bytes ever gets into the broker or is sent to a client, whatever lengths a client announces; consequently the tree of subscriptions is at most 4097 levels deep, and so is the recursion that removes a client from it.", "quantifier": "For all executions, byte streams, fragmentations, releases of the bytes library and schedules; generated client ids are assumed to be at most 4096 bytes.", "why_tests_cant": "It is about every byte stream a client may send, and about the largest things that can ever get in.", "anchors": ["src/mqtt/transport/mqtt_bytes_stream.rs: get_bytes, get_string", "src/mqtt/transport/packet_decoder.rs: read_packet", "src/broker/messaging/subscriptions_repository.rs: remove_client", "src/mqtt/listener.rs: handle_connection"]}
{"id": "C122", "title": "A packet is judged when its announced bytes have come", "statement": "Once the number of bytes announced in a packet's fixed header has arrived, the packet is accepted or rejected; the broker does not wait for more bytes to finish it.", "quantifier": "For all packets, announced lengths and bytes that follow.", "why_tests_cant": "Waiting for ever is not observable in a finite test, and the inconsistent packets are infinitely many.", "anchors": ["src/mqtt/transport/packet_decoder.rs: decode_connect, decode_publish, decode_subscribe, decode_unsubscribe"]}
{"id": "C123", "title": "A password may be any bytes", "statement": "A CONNECT whose password is an arbitrary byte string of at most 65535 bytes (3.1.3.5) is read and answered with a CONNACK, like one whose password is text.", "quantifier": "For all CONNECT packets without will, all passwords, fragmentations and continuations.", "why_tests_cant": "Test clients send passwords that are text; the failing ones are byte strings that are not UTF-8.", "anchors": ["src/mqtt/transport/packet_decoder.rs: decode_connect", "src/mqtt/transport/mqtt_bytes_stream.rs: get_string"]}
{"id": "C124", "title": "A request with several filters is as several requests", "statement": "A SUBSCRIBE with several filters leaves the broker exactly as one SUBSCRIBE for each of them in turn, and its SUBACK carries the return codes of those SUBACKs in order (3.8.4); an UNSUBSCRIBE with several filters leaves the broker exactly as one UNSUBSCRIBE for each of them (3.10.4).", "quantifier": "For all states of the broker, clients, packet identifiers and lists of filters.", "why_tests_cant": "It relates two executions for every state and every list of filters, repeated and overlapping ones included.", "anchors": ["src/broker/client_packet_handler.rs: on_subscribe, on_unsubscribe", "src/broker/messaging/messaging_service.rs: subscribe, unsubscribe"]}
{"id": "C125", "title": "A filter without wildcards stands for its own topic only", "statement": "A filter without wildcards matches exactly the topic that equals it character by character (4.7.3-4): a client with only such subscriptions receives a message once per subscription to the very topic, and no message on any other topic, be it different only in case, in a slash at either end or in an empty level.", "quantifier": "For all filters without wildcards, all topics, all histories of subscriptions and all executions.", "why_tests_cant": "There are infinitely many topics that differ from a filter in ways a normalising comparison would overlook.", "anchors": ["src/broker/messaging/subscriptions_repository.rs: subscribed_clients, subscribe", "src/broker/client_packet_handler.rs: on_publish"]}
{"id": "C126", "title": "The password file is replaced in one step", "statement": "At every moment while ratelmq-passwd runs the password file holds its old content or its new one, so that an interrupted run loses nothing and a broker started meanwhile knows its users.", "quantifier": "For all password files, users and actions, and all moments of a run.", "why_tests_cant": "The moment between truncating and writing is not seen by a test that looks at the file after the run.", "anchors": ["ratelmq-passwd/src/main.rs: main", "src/broker/authentication.rs: FileIdentityManager"]}
{"id": "C127", "title": "The tool makes the file for the first user", "statement": "Setting a password with ratelmq-passwd when there is no password file yet creates one with that user.", "quantifier": "For all users and passwords.", "why_tests_cant": "A test sets up the file beforehand.", "anchors": ["ratelmq-passwd/src/main.rs: main"]}
{"id": "C128", "title": "What the tool does to a password file, exactly", "statement": "ratelmq-passwd changes at most one entry of a password file. It takes for the user's entry the first one whose name ends like the user's name, upper and lower case being the same. Setting a password replaces that part of the name by the user's name and the credential by the new one, or appends an entry if there is no such name; deleting removes that part of the name and the rest of the line, so that what precedes it is put in front of the following line.", "quantifier": "For all files of entries without ':' or line feeds in names and credentials, all users and hashes.", "why_tests_cant": "Which entry is hit depends on all names in the file and their order.", "anchors": ["ratelmq-passwd/src/main.rs: main, build_entry"]}
{"id": "C129", "title": "The environment overrides the configuration file", "statement": "If RATELMQ_AUTHENTICATION__PASSWORD_FILE is set (in upper or lower case), the broker uses the password file it names, whatever the configuration file and the other variables say; if it is not set, the one of the configuration file. The configuration file need not name one if the variable is set. A variable of the environment wins over an entry of the file .env; otherwise the first entry counts.", "quantifier": "For all configuration files, environments, files .env and orders in which the variables are merged.", "why_tests_cant": "The repository leaves this as a todo; which variables there are and in which order a hash map yields them differs from run to run.", "anchors": ["src/settings/mod.rs: new", "src/main.rs: main", "src/application.rs: run"]}
{"id": "C130", "title": "Every setting can be given by a variable of the environment", "statement": "Each setting of the configuration file can be overridden by the variable with the prefix RATELMQ_ and the nested names separated by __ (README).", "quantifier": "For all settings, configuration files and environments.", "why_tests_cant": "A test of one setting says nothing about another; the failing one is the only list.", "anchors": ["src/settings/mod.rs: new, MqttSettings", "README.md"]}
{"id": "C131", "title": "Unrelated variables of the environment do not matter", "statement": "Whether the broker starts and its settings do not depend on variables of the environment that are not for it.", "quantifier": "For all configuration files, environments and places of the variable in it.", "why_tests_cant": "Tests run in one environment, in which all variables are Unicode.", "anchors": ["src/settings/mod.rs: new", "src/application.rs: run"]}
{"id": "C132", "title": "Bytes from a client have exactly one meaning, which later bytes do not change", "statement": "Whatever bytes a client has sent, exactly one of these holds: they begin with one certain packet; they are malformed; they make the decoder panic; more bytes are needed to tell. Each is decided by a rule about the bytes (Spec.HasFate), and the decoder acts accordingly. Except for the last, what follows and how the connection ends changes nothing, and the bytes that follow are left for the next packet. In the last, the end of the connection is reported as such.", "quantifier": "For all byte strings, continuations and ends of the connection, in builds with and without overflow checks.", "why_tests_cant": "The byte strings that are almost a packet are infinitely many; so are the continuations.", "anchors": ["src/mqtt/transport/packet_decoder.rs: read_packet, decode_connect, decode_publish, decode_subscribe, decode_unsubscribe", "src/mqtt/transport/mqtt_bytes_stream.rs: get_string"]}
{"id": "C133", "title": "The waiting time of a packet is bounded", "statement": "Count time in rounds: stretches in which the packet handler and the write task of every connection get at least one turn. The first k packets waiting in the handler's queue have been handled, and everything to be sent because of them has been put into the queues of the connections, after at most 2(k + n + 1) rounds, where n is the number of packets the sequential broker sends for these packets and all earlier ones and that have not been sent yet. 32 rounds later everything sent is on the wire or in the write buffer. No packet that arrives in the meantime, from whatever client, delays this, as long as the handler is alive and no socket blocks a write for ever; this is so if every CONNECT is accepted, nobody pings or nobody disconnects, ctrl-c is not pressed and the sockets take enough writes.", "quantifier": "For all numbers of connections, all input, all schedules up to the moment the packets wait, all sequences of rounds after it with any other steps in them in any order.", "why_tests_cant": "The bound is for every interleaving and every amount of other traffic; a test measures a few.", "anchors": ["src/broker/client_packet_handler.rs: run", "src/mqtt/listener.rs: connection_write_loop", "src/application.rs"]}
{"id": "C134", "title": "Nobody is shut out by busy clients", "statement": "A client whose packet finds the channel to the packet handler full is not passed over for ever: once the handler has taken more packets than there were clients waiting already (more than there are connections, in any case), its packet is in the channel after the next turn of its read task, with at most 31 packets before it, however many packets other clients send meanwhile. The waiting list does not restrict what can happen otherwise: the broker reaches exactly the same states with it.", "quantifier": "For all numbers of connections, all input, all schedules before, between and after, as long as the handler is alive.", "why_tests_cant": "Overtaking depends on the interleaving of all tasks; a test sees a few and none with unbounded competition.", "anchors": ["src/application.rs", "src/mqtt/listener.rs: connection_read_loop", "src/broker/client_packet_handler.rs: run"]}
{"id": "C135", "title": "Exactly which packets crash the broker", "statement": "Whatever the clients send, if their sockets take enough writes, the packet handler can crash having taken a given sequence of events if and only if: the events are, for each connection, a beginning of what can be received from it (all its packets, if it brings fewer than 4096 bytes); all but the last can be served (C77); and the last one is a CONNECT with a user name and no password, or a SUBSCRIBE, UNSUBSCRIBE or PINGREQ on a connection that had been told to go away before. So every such sequence is an attack, and there are no others.", "quantifier": "For all inputs (any bytes) of any length, all sequences of events, all schedules.", "why_tests_cant": "The direction 'only if' is about all schedules and inputs, the direction 'if' about every sequence of that shape.", "anchors": ["src/broker/client_packet_handler.rs: on_connect", "src/broker/client_packet_handler.rs: run", "src/mqtt/listener.rs: connection_write_loop"]}
{"id": "C136", "title": "Clients that react", "statement": "Clients may decide what to send next, when to end their connection and how fast to read on the basis of all they have received so far. At every moment the broker is then in a state, and has sent every client the bytes, that it would be in and would have sent if all the clients do had been settled before it started; and conversely. So everything proved for executions with input settled in advance holds among clients that react.", "quantifier": "all executions in which arrivals of bytes, ends of connections, answers of sockets and steps of the tasks are interleaved in any way; all moments of them", "why_tests_cant": "a test is one conversation; this is about all of them", "anchors": ["src/mqtt/listener.rs: connection_read_loop, connection_write_loop", "src/mqtt/transport/mqtt_bytes_stream.rs"]}
{"id": "C137", "title": "Real-time order", "statement": "The broker is linearizable in real time: at every moment there is a sequence of packets it has dealt with, which only grows, consists of packets that have arrived by then, those of each connection in the order sent, and accounts for everything clients have received by then. In particular, if a message is sent after somebody has been sent another one, nobody ever gets the two in the opposite order.", "quantifier": "all executions with clients that react; any two moments of them", "why_tests_cant": "all interleavings of any number of clients", "anchors": ["src/broker/client_packet_handler.rs: run", "src/mqtt/listener.rs: connection_read_loop, connection_write_loop"]}
{"id": "C138", "title": "Subscribe, then publish", "statement": "If a client has read the SUBACK for a filter, and after that anybody sends a message matching the filter, the message is sent to the client once the broker has dealt with it, unless the client has sent DISCONNECT or an UNSUBSCRIBE for the filter or another connection uses its client id.", "quantifier": "all executions with clients that react, all earlier and later packets of all clients", "why_tests_cant": "the race between SUBACK and PUBLISH in all interleavings", "anchors": ["src/broker/client_packet_handler.rs: on_subscribe, on_publish", "src/mqtt/listener.rs: connection_write_loop"]}
{"id": "C139", "title": "What the broker writes can be read in one way only", "statement": "The encoding of server packets is unambiguous: no encoded packet is the beginning of another one, and different packets have different bytes. So a client that reads complete packets from what it has got reads exactly the first packets the broker has queued for it, unless a write has failed.", "quantifier": "all packets a server may send; all executions", "why_tests_cant": "pairs of arbitrary packets followed by arbitrary bytes", "anchors": ["src/mqtt/transport/packet_encoder.rs"]}
{"id": "C140", "title": "The combined stream is a reader and a writer side by side", "statement": "Calls of the functions of MqttBytesStream, in any order, return what the same calls return on a MqttBytesReadStream and a MqttBytesWriteStream on the same connection, and leave both directions in the same state: reading never disturbs writing and conversely.", "quantifier": "all sequences of calls with all arguments, all inputs and splittings of them, all socket behaviours, all buffer sizes", "why_tests_cant": "infinitely many interleavings of calls", "anchors": ["src/mqtt/transport/mqtt_bytes_stream.rs: MqttBytesStream, MqttBytesReadStream, MqttBytesWriteStream"]}
{"id": "C141", "title": "The session service is a map", "statement": "After any insertions and deletions, SessionService over the in-memory repository holds for each client id the session inserted last, unless it was deleted since: get and delete return that session, exists tells whether there is one, count is the number of client ids that have one.", "quantifier": "all sequences of insertions and deletions, all client ids", "why_tests_cant": "all histories", "anchors": ["src/broker/session/session_service.rs: SessionService", "src/broker/session/session_repository.rs: InMemorySessionRepository"]}
{"id": "C142", "title": "A clean session starts empty", "statement": "A client that connects asking for a clean session is sent no application message but those matching a filter it has subscribed to since: subscriptions of an earlier session under the same client id are discarded (MQTT-3.1.2-6).", "quantifier": "all histories before the CONNECT, all events after it, all client ids, filters and messages", "why_tests_cant": "a test observes one history; what is left over depends on everything the client did before and on how the earlier connection ended", "anchors": ["src/broker/client_packet_handler.rs: on_connect", "src/broker/messaging/messaging_service.rs"]}
{"id": "C143", "title": "A broker that keeps running serves everybody for ever", "statement": "Let the broker run for ever while clients come, send, react to what they get, and leave, as they like. If every task gets its turn again and again and every socket answers a write again and again, then either the broker crashes, on one of the events known to be fatal, or: whatever has arrived at any moment, from some later moment on every packet that can be decoded from it has been handled, those of a connection in the order sent (unless its reader spins); and what the sequential broker answers to the packets handled has been put into the channels and written, up to the order to disconnect.", "quantifier": "all endless executions with a waiting list at the client-event channel, all clients that react, any number of connections", "why_tests_cant": "endless executions; never is not observable", "anchors": ["src/mqtt/listener.rs: connection_read_loop, connection_write_loop", "src/broker/client_packet_handler.rs: run", "src/application.rs: run"]}
{"id": "C144", "title": "Messages arrive", "statement": "Let the broker run for ever without crashing, every task getting its turn and every socket answering a write again and again. If a client whose client id nobody else uses has read the SUBACK for a filter and never disconnects or unsubscribes, then every message that a connected client sends from then on and that matches the filter is eventually written to the socket of the subscriber, unless the reader of the sender spins.", "quantifier": "all endless executions, all clients that react, all topics, filters and messages", "why_tests_cant": "endless executions; eventually is not observable", "anchors": ["src/broker/client_packet_handler.rs: on_publish, on_subscribe", "src/mqtt/listener.rs: connection_read_loop, connection_write_loop", "src/broker/messaging/messaging_service.rs: publish"]}
{"id": "C145", "title": "Read acknowledgements decide exactly what a client gets", "statement": "Once a client whose client id nobody else uses has read the SUBACKs and UNSUBACKs of all it asked for and changes nothing more about its subscriptions, it is sent from then on, of every message the broker deals with, exactly as many copies as the filters it holds call for, in the order in which the broker deals with them, and nothing else. A message sent once and after the acknowledgements were read arrives exactly that often; if it matches no filter still held (the client has read the UNSUBACK), never. In a broker that runs for ever it is from some moment on written to the client's socket exactly that often.", "quantifier": "all executions among clients that react, finite and endless, all subscription histories, all topics, filters and messages", "why_tests_cant": "all interleavings; never and exactly so often are statements about all times", "anchors": ["src/broker/client_packet_handler.rs: on_publish, on_subscribe, on_unsubscribe", "src/broker/messaging/subscriptions_repository.rs: subscribed_clients", "src/mqtt/listener.rs: connection_read_loop, connection_write_loop"]}
{"id": "C146", "title": "Every request is answered, once and in order", "statement": "Let the broker run for ever without crashing, every task getting its turn and every socket answering a write again and again. For a client whose CONNECT is accepted, whose client id nobody else uses and that does not send DISCONNECT: what is written to its socket and is not a message is at any time the first part of a CONNACK followed by the answers to its SUBSCRIBEs, UNSUBSCRIBEs and PINGREQs in the order sent; and from some moment on the answers to all packets sent by any given moment have been written, unless its reader spins.", "quantifier": "all endless executions, all clients that react, all packets", "why_tests_cant": "endless executions; eventually is not observable", "anchors": ["src/broker/client_packet_handler.rs: on_connect, on_subscribe, on_unsubscribe, on_ping_req", "src/mqtt/listener.rs: connection_read_loop, connection_write_loop"]}
{"id": "C147", "title": "Reconnecting after DISCONNECT", "statement": "A client that sends DISCONNECT, closes the connection and then connects again under the same client id is served on the new connection as if it had never been connected: it is acknowledged, its earlier subscriptions are gone, every subscription it makes now is in force, its pings are answered, and nothing that was sent on the earlier connection affects the new one.", "quantifier": "all executions among clients that react, all interleavings of the tasks of both connections, all histories of the earlier connection", "why_tests_cant": "depends on the order in which two read tasks deliver to one channel; a test sees one interleaving", "anchors": ["src/broker/client_packet_handler.rs: on_connect, on_disconnect, on_ping_req", "src/broker/session/session_repository.rs", "src/mqtt/listener.rs: connection_read_loop"]}
{"id": "C148", "title": "Sockets of clients that are gone are released", "statement": "When a client has closed its connection, with or without DISCONNECT, and everything it sent has been dealt with, the broker releases the socket, the task and the channel of that connection; so the broker never keeps more sockets than clients are connected.", "quantifier": "any number of connections, all fair schedules, all inputs", "why_tests_cant": "any number of connections; that a socket is kept for ever is a statement about all times", "anchors": ["src/mqtt/listener.rs: handle_connection, connection_read_loop, connection_write_loop", "src/broker/client_packet_handler.rs: on_connect, on_disconnect", "src/broker/session/session_entity.rs"]}
{"id": "C149", "title": "The broker goes on accepting connections", "statement": "The operating system limits the number of sockets a process may have open. A client that asks for a connection is accepted in the end, unless as many other clients as there is room for are connected at that time.", "quantifier": "every limit, any number of connections, all fair schedules, all inputs, all behaviour of the sockets", "why_tests_cant": "that a client is never accepted is a statement about all times; every limit and any number of connections", "anchors": ["src/mqtt/listener.rs: start_accepting, accept, handle_connection, connection_read_loop, connection_write_loop", "src/broker/session/session_entity.rs"]}
{"id": "C150", "title": "Password changes made at the same time are all kept", "statement": "If several runs of ratelmq-passwd on one password file overlap in time, the file in the end is as if they had been made one after the other.", "quantifier": "all password files, all users and actions, any number of runs, all interleavings of their calls, all ways reads and writes may be split", "why_tests_cant": "depends on the interleaving of two processes", "anchors": ["ratelmq-passwd/src/main.rs: main", "src/broker/authentication.rs: FileIdentityManager"]}
{"id": "C151", "title": "A failed run of the tool leaves the password file as it was", "statement": "If ratelmq-passwd cannot do what it is asked to do, because a file operation fails, the password file has its old content afterwards.", "quantifier": "all password files, users and actions, failure of any call, all ways reads and writes may be split", "why_tests_cant": "failures of single calls, such as for lack of space, do not happen in a test", "anchors": ["ratelmq-passwd/src/main.rs: main"]}
{"id": "C152", "title": "A client is written only what it expects", "statement": "What the broker writes to a connection is nothing, or a CONNACK with the verdict on the connection's CONNECT followed, if it was accepted, by messages and by the answers to the connection's SUBSCRIBEs, UNSUBSCRIBEs and PINGREQs in the order sent and without gaps; after a refusal nothing follows. Unless a write fails, the same is true of whatever packets the client reads from the bytes that reach it.", "quantifier": "all bytes of all peers, all schedules, all behaviours of the sockets, all connections, also of clients that share a client id, disconnect or are refused", "why_tests_cant": "an answer too many, too early or to somebody else may appear only in some interleaving", "anchors": ["src/broker/client_packet_handler.rs: ClientPacketHandler", "src/mqtt/listener.rs: MqttListener"]}
{"id": "C153", "title": "Changes of passwords take effect", "statement": "When ratelmq-passwd has ended well, the broker judges CONNECTs that come afterwards by the new content of the password file: a deleted user is refused.", "quantifier": "all password files, users and passwords, all interleavings of calls of the tool with steps of the broker and with its starts", "why_tests_cant": "needs two programs and their order in time", "anchors": ["src/broker/authentication.rs: FileIdentityManager", "src/broker/client_packet_handler.rs: ClientPacketHandler::new", "ratelmq-passwd/src/main.rs: main"]}
{"id": "C154", "title": "Clients that stay are served as long as they stay", "statement": "Of a client that is accepted and sends legal packets, every packet is handled in the end, however many it sends on the same connection; and every client is sent all that the broker's answers and relayed messages amount to, for packets handled late as for packets handled early.", "quantifier": "all numbers of connections, all legal packets in any number, all fragmentations, all fair schedules, all numbers of worker threads", "why_tests_cant": "needs long-lived connections and all positions of texts and payloads in the stream; the tests close the connection after a few packets", "anchors": ["src/mqtt/transport/mqtt_bytes_stream.rs: get_bytes, wait_for_data", "src/mqtt/listener.rs: handle_connection (buffer of 4096 bytes)", "src/broker/client_packet_handler.rs: ClientPacketHandler"]}
{"id": "C155", "title": "The published image starts", "statement": "A container made from the image of the Dockerfile and started as the README says (docker run, no options) comes up as a broker on port 1883.", "quantifier": "all environments and file systems outside /etc/ratelmq; for the part that holds all files added to /etc/ratelmq but ratelmq.conf", "why_tests_cant": "the tests start no broker, and the result depends on files that only exist in the image", "anchors": ["Dockerfile: COPY ./config/ratelmq.toml", "config/ratelmq.toml", "src/main.rs: main", "src/settings/mod.rs: Settings::new", "src/broker/client_packet_handler.rs: ClientPacketHandler::new"]}
{"id": "C156", "title": "The configuration file named is the one used", "statement": "The broker takes its settings from the file given with --config (by default /etc/ratelmq/ratelmq.conf) and from no other; if there is no such file it does not start.", "quantifier": "all names, all file systems, all environments, whatever TOML is", "why_tests_cant": "needs file systems with and without files of similar names", "anchors": ["src/main.rs: main", "src/settings/mod.rs: Settings::new", "README.md: Configuration"]}
{"id": "C157", "title": "Passwords and message contents stay out of the log", "statement": "Neither the password of a CONNECT nor the content of a message gets into the log, at whatever level it is written.", "quantifier": "all executions, all clients, all levels; for the part that holds all pairs of executions that differ in secrets only", "why_tests_cant": "a statement about two executions at a time, over all inputs; no test looks at the log", "anchors": ["src/mqtt/listener.rs: trace!(\"Read the first packet: {:?}\")", "src/broker/client_packet_handler.rs: trace!(\"Got event {:?}\")", "src/mqtt/packets/connect.rs: derive(Debug)"]}
{"id": "C158", "title": "Refused logins are on record", "statement": "With RUST_LOG set to INFO, as in the image, or finer, the log shows every refused login once, with the name of the user and the reason, in the order in which they were handled, and shows no refusal that did not happen.", "quantifier": "all executions, all clients and user names, all password files", "why_tests_cant": "a client chooses its user name, client id and topics; that none of them makes a record look like a refusal is a statement over all texts", "anchors": ["src/broker/client_packet_handler.rs: info!(\"Client {} authentication error: {:?}\")"]}
{"id": "C159", "title": "The log can be read in one way only", "statement": "From the text of the log the records can be told, each with time, level, module and message, whatever clients send; no client can make the log show a record that was not made.", "quantifier": "all lists of records with any messages, all times without spaces", "why_tests_cant": "injectivity over all texts", "anchors": ["src/main.rs: env_logger::init", "src/broker/client_packet_handler.rs: info!, error!"]}
{"id": "C160", "title": "Control characters of clients do not reach the log", "statement": "The log contains no control characters (line feeds inside a record, escape sequences of terminals) that come from clients.", "quantifier": "all executions, all texts sent by clients", "why_tests_cant": "over all texts and all kinds of records", "anchors": ["src/broker/client_packet_handler.rs: info!(\"Client {} authentication error: {:?}\")", "src/broker/client_packet_handler.rs: error!(\"Received PING from not existing session with client id {}\")"]}
{"id": "C161", "title": "The log shows who logged in", "statement": "With RUST_LOG set to DEBUG the log shows for every client that is connected as which user it has logged in.", "quantifier": "all executions, all users", "why_tests_cant": "a statement about two executions at a time", "anchors": ["src/broker/client_packet_handler.rs: on_connect, debug!(\"New client {:?} connected\")"]}
{"id": "C162", "title": "The log tells how far the broker is", "statement": "With RUST_LOG set to INFO or finer the log says that the broker begins, that it is ready, that it stops and that it has stopped, each once and in this order: ready if and only if all configured addresses are bound, stopping if and only if ctrl-c has come since, stopped if and only if the process has shut down in order. The addresses it says it listens on are those for which there is a listener, and all of the settings once it says it is ready.", "quantifier": "all settings and password files, all executions from the start of the process on, whatever fails on the way, all clients", "why_tests_cant": "supervisors and scripts wait for these lines; that none is written too early, twice or after a crash is a statement over all executions and all points at which something fails", "anchors": ["src/application.rs: info!(\"Successfully initialized RatelMQ, ready to accept connections\")", "src/application.rs: info!(\"RatelMQ stopped\")", "src/mqtt/listener.rs: info!(\"Listening for MQTT TCP connections on {}\")"]}
{"id": "C163", "title": "Without clients the log stands still", "statement": "Once clients do nothing more, the log comes to an end: the broker does not go on writing records.", "quantifier": "all executions in which finitely many clients ask to be accepted; for the violation all clients that connect without a client id and go away, all limits on sockets, all fair schedules", "why_tests_cant": "a statement about infinite executions", "anchors": ["src/mqtt/listener.rs: error!(\"Error while accepting connection: {}\")", "src/mqtt/listener.rs: loop { select! { … } }"]}
{"id": "C164", "title": "Which listener a client comes through makes no difference", "statement": "A broker with several listeners is one broker: whatever can happen with some configured addresses and clients spread over them can happen, in the same way, with any other addresses and any other distribution of the clients over them, and nothing else can.", "quantifier": "all executions of the process, all numbers of listeners, all assignments of clients to listeners, all configured addresses", "why_tests_cant": "an equivalence of two sets of executions, shutdown included; tests use one listener", "anchors": ["src/application.rs: for address in settings.mqtt.listeners_tcp", "src/mqtt/listener.rs: start_accepting", "CHANGELOG.md: Multiple listeners"]}
{"id": "C165", "title": "MQTT 3.1 and MQTT 3.1.1 clients are served alike", "statement": "Clients that speak MQTT 3.1 (CONNECT with protocol name MQIsdp and version 3) are served as the same clients speaking MQTT 3.1.1.", "quantifier": "all clients, packets and executions; for the part that holds connections on which fewer than 4096 bytes are sent, or on which as many packets fit into the windows of the read buffer in the one version as in the other", "why_tests_cant": "an equivalence of executions over all inputs; no test uses MQTT 3.1", "anchors": ["CHANGELOG.md: Basic MQTT 3.1 & 3.1.1 support", "src/mqtt/transport/packet_decoder.rs: decode_connect"]}
{"id": "C166", "title": "Connections that do not log in are closed", "statement": "A connection on which no CONNECT is received is closed, so that connections nobody logs in on do not keep clients out.", "quantifier": "all connections that bring no well-formed CONNECT, all clients on other connections, all executions", "why_tests_cant": "about all schedules and about what never happens; tests open a handful of connections and log in on each", "anchors": ["src/mqtt/listener.rs: connection_read_loop, accept", "MQTT 3.1.1 section 3.1: close the connection if no CONNECT is received within a reasonable amount of time"]}
{"id": "C167", "title": "A client that reads slowly costs bounded memory", "statement": "What the broker keeps in memory for a connection stays below a bound, however fast others send to that client and however slowly it takes what it is sent.", "quantifier": "all executions with any number of clients (for the part that holds: sockets that take everything the broker has buffered for them in one write, or keep it waiting)", "why_tests_cant": "unbounded growth over arbitrarily long executions with partial writes; on the loopback interface every write is taken in full", "anchors": ["src/mqtt/transport/mqtt_bytes_stream.rs: finish_packet, write_buffer_if_too_small, put_bytes", "src/mqtt/listener.rs: connection_write_loop, channel of 32"]}
{"id": "C168", "title": "How bytes arrive makes no difference to anybody", "statement": "What the broker can do with its clients - which packets it takes in which order, what it sends to whom, and whether it crashes - depends only on the packets received from them: not on the pieces in which TCP brings the bytes, nor on how the connections end.", "quantifier": "all sets of clients and all ways of cutting what they send into pieces, all sequences of events, all schedules; for the pieces: releases of the library that leave an emptied view where it is, or connections with fewer than 4096 bytes", "why_tests_cant": "an equivalence of sets of executions over all clients and all fragmentations; tests send each packet in one write", "anchors": ["src/mqtt/transport/mqtt_bytes_stream.rs: wait_for_data, get_bytes", "src/mqtt/listener.rs: connection_read_loop", "src/broker/client_packet_handler.rs"]}
{"id": "C169", "title": "What comes later takes nothing away", "statement": "Whatever the broker can do with some clients it can still do when these clients send more afterwards, when further clients come, and however the connections end.", "quantifier": "all sets of clients, all continuations of what they send, all sequences of events, all schedules; sockets that take enough writes", "why_tests_cant": "relates all executions with some clients to executions with all larger sets of clients", "anchors": ["src/mqtt/listener.rs: connection_read_loop", "src/mqtt/transport/packet_decoder.rs: read_packet", "src/broker/client_packet_handler.rs"]}
{"id": "C170", "title": "A packet makes a bounded amount of log", "statement": "With the log at INFO or above, the broker writes at most a fixed number of records for each packet a client sends, so that clients cannot fill the log faster than they send.", "quantifier": "all executions with any number of clients (for the part that holds: as long as only clients that have a session hold subscriptions)", "why_tests_cant": "a count over whole executions; the records for stale subscriptions need clients that subscribe after they have taken their leave, in any number", "anchors": ["src/broker/messaging/messaging_service.rs: senders_to_publish", "src/broker/client_packet_handler.rs: on_connect, on_packet, on_publish, on_ping_req, on_connection_lost", "src/mqtt/listener.rs: connection_read_loop, connection_write_loop"]}
{"id": "C171", "title": "Sessions belong to users", "statement": "What a client has subscribed to is sent only to the user that client has logged in as: another user, or a client without credentials, cannot take over the session by using its client id.", "quantifier": "all executions with any clients, users and identity provider (for the part that holds: those in which no client id is used with two users)", "why_tests_cant": "a security property of all interleavings; tests use distinct client ids", "anchors": ["src/broker/client_packet_handler.rs: on_connect, on_publish", "src/broker/session/session_repository.rs: insert", "src/broker/messaging/messaging_service.rs: senders_to_publish"]}
{"id": "C172", "title": "The version names the build", "statement": "The broker can be built from its sources and started, and its version tells which commit it was built from.", "quantifier": "all outputs of git, all versions of the package", "why_tests_cant": "tests run in one checkout, with one commit", "anchors": ["build.rs: main", "src/config/build_info.rs: BUILD_INFO", "src/main.rs: main"]}
{"id": "C173", "title": "The full log tells what the broker did", "statement": "From the log at level TRACE one can tell, in order, everything the packet handler was given: every CONNECT with all its fields and whether and why the login was refused, every packet with all its fields and the client id it came from, and every lost connection; and so which clients have a session and which subscriptions are held.", "quantifier": "all pairs of executions with the same log, of whatever clients, schedules and password files", "why_tests_cant": "texts chosen by clients may contain quotation marks, commas, braces and line ends, in every combination", "anchors": ["src/broker/client_packet_handler.rs: run, on_connect, on_packet", "src/mqtt/events.rs: ClientEvent", "src/mqtt/packets/mod.rs: ControlPacket", "src/mqtt/packets/connect.rs: ConnectPacket"]}
{"id": "C174", "title": "Names have no meaning", "statement": "Client ids, the names of topic levels and the contents of messages have no meaning for the broker: with the same clients under other client ids, with other level names and other payloads (different ids and levels staying different, wildcards and empty client ids staying what they are), the broker can do exactly what it can do with the original ones, renamed: the same order of events, the same packets to the same connections, the same crashes.", "quantifier": "all clients, all renamings, all sequences of events and all executions", "why_tests_cant": "every test uses particular names; a special case for some id, topic or content is only met by chance", "anchors": ["src/broker/messaging/subscriptions_repository.rs: subscribe, unsubscribe, subscribed_clients", "src/broker/session/session_repository.rs", "src/broker/client_packet_handler.rs: on_connect, on_packet", "src/mqtt/listener.rs: connection_read_loop"]}
{"id": "C175", "title": "Setting the clock does no harm", "statement": "What the system clock says makes no difference: if it is set forward or back while the broker runs, every connection is read, sent and written exactly the same, and the log has the same records.", "quantifier": "all executions of the process and all clock readings", "why_tests_cant": "clocks jump rarely and by arbitrary amounts, at any moment between any two steps of the tasks", "anchors": ["src/broker/client_packet_handler.rs: on_connect (Utc::now)", "src/broker/session/session_entity.rs: last_activity, is_keep_alive_expired", "src/broker/messaging/messaging_service.rs: session_get_keep_alive_expired"]}
{"id": "C176", "title": "Only races that matter matter", "statement": "When clients act at the same time, the order in which the broker happens to take two neighbouring events makes no difference to anybody, if the events have nothing to do with each other: they are of different clients, come from or are messages for different connections, and neither is a message whose receivers the other may change. Every order that differs by such exchanges is just as possible, every connection is sent the same, and the broker can be crashed by the same event afterwards.", "quantifier": "all clients, all sequences of events, any number of exchanges of independent neighbours and all executions", "why_tests_cant": "the order is chosen by the scheduler; a test sees one order per run and cannot show that the others give the same", "anchors": ["src/broker/client_packet_handler.rs: run, on_connect, on_packet", "src/mqtt/listener.rs: connection_read_loop", "src/broker/messaging/messaging_service.rs: publish, subscribe, unsubscribe", "src/broker/messaging/subscriptions_repository.rs"]}
{"id": "C177", "title": "Communities that share no topics do not notice each other", "statement": "If two communities of clients share a broker under different client ids, and no message of the first is on a topic that somebody of the second subscribes to, then the second does not notice the first, whatever bytes it sends: everything the clients of the second are sent is what the broker would send them if they had it to themselves.", "quantifier": "all clients, all bytes they send, all executions of the process", "why_tests_cant": "a test has two particular communities; that nothing at all leaks, for all bytes and all interleavings, needs a proof", "anchors": ["src/broker/messaging/subscriptions_repository.rs: subscribe, unsubscribe, subscribed_clients", "src/broker/messaging/messaging_service.rs: senders_to_publish", "src/broker/client_packet_handler.rs: on_publish, on_packet"]}
{"id": "C178", "title": "Asking for more takes nothing away", "statement": "Further SUBSCRIBEs, further messages and further PINGREQs, by anybody and at any moment, take nothing away from anybody: everything a connection is sent without them it is also sent with them, in the same order.", "quantifier": "all clients, all executions of the broker, all further requests anywhere in between", "why_tests_cant": "it compares every execution with every execution that has further requests in it; a test compares two", "anchors": ["src/broker/messaging/subscriptions_repository.rs: subscribe, subscribed_clients", "src/broker/messaging/messaging_service.rs: senders_to_publish", "src/broker/client_packet_handler.rs: on_publish, on_subscribe, on_ping_req"]}
{"id": "C179", "title": "Clients with the same subscriptions get the same messages", "statement": "Two clients that are connected and hold the same subscriptions, each as often as the other, are sent the same messages from then on, in the same order, as long as neither does anything but publish and nobody else connects under their ids.", "quantifier": "all clients, all pairs of them, all moments of all executions of the broker", "why_tests_cant": "it compares two clients under everything all other clients can do; a test has particular messages and particular filters", "anchors": ["src/broker/messaging/subscriptions_repository.rs: subscribed_clients", "src/broker/messaging/messaging_service.rs: senders_to_publish", "src/broker/client_packet_handler.rs: on_publish"]}
{"id": "C180", "title": "The past matters only through connections and subscriptions", "statement": "What the broker does from some moment on depends, besides what happens from then on, on exactly two things: which clients are reached on which connections, and which subscriptions they hold how often. Nothing else of the past makes a difference, and each of the two does.", "quantifier": "all histories, all pairs of histories, everything that may happen afterwards, all executions of the broker", "why_tests_cant": "it compares all pairs of pasts under all futures", "anchors": ["src/broker/messaging/subscriptions_repository.rs: subscribe, unsubscribe, subscribed_clients", "src/broker/messaging/messaging_service.rs: senders_to_publish", "src/broker/client_packet_handler.rs: run, on_packet, on_publish"]}
{"id": "C181", "title": "The broker does not look into messages", "statement": "Who gets a message, how often and when does not depend on its content, QoS, packet id, DUP or RETAIN flag: exchange the messages published for any others on the same topics, and everybody is sent what they were sent before with these messages exchanged, and nothing else changes. So clients may, for instance, encrypt what they send.", "quantifier": "all clients, all executions of the broker, all ways of exchanging messages that keep their topics", "why_tests_cant": "there are infinitely many contents; a test sees that some are treated alike", "anchors": ["src/broker/client_packet_handler.rs: on_publish, on_packet", "src/broker/messaging/messaging_service.rs: senders_to_publish"]}
{"id": "C182", "title": "Messages do not influence each other", "statement": "Leave out any of the messages published, and everybody is sent what they were sent before but for these messages: who gets a message does not depend on which other messages there are.", "quantifier": "all clients, all executions of the broker, all choices of messages", "why_tests_cant": "all subsets of all messages of all executions", "anchors": ["src/broker/client_packet_handler.rs: on_publish, on_packet", "src/broker/messaging/messaging_service.rs: senders_to_publish"]}
{"id": "C183", "title": "RUST_LOG means what it says", "statement": "RUST_LOG holds rules separated by commas, a level for everything or `modules=level` for modules whose names begin so. A record is written to the log if and only if the rule that gives most of the name of its module, the last of several, allows its level. A single level, however capitalised, is that level for everything; without RUST_LOG, or if it is empty, only errors are written.", "quantifier": "all non-empty lists of rules, all records, all definitions of white space that leave letters and `=` alone; for single levels all capitalisations", "why_tests_cant": "no test sets RUST_LOG; which rule decides depends on all of them", "anchors": ["src/main.rs: env_logger::init()", "Dockerfile: ENV RUST_LOG=INFO", ".env: RUST_LOG"]}
{"id": "C184", "title": "Nothing is sent without a reason, and every reason counts", "statement": "Whenever the broker is at rest, a connection has been sent exactly this: a message if, when it was published, a client reached there held a subscription to its topic; a CONNACK that accepts if it gave no login or a right one, and one that refuses, with the order to disconnect, if it gave a wrong one; a SUBACK or UNSUBACK with the packet id of every SUBSCRIBE or UNSUBSCRIBE it sent; a PINGRESP if it sent a PINGREQ while its client id had a session, and the order to disconnect if it had none. At other times nothing else either.", "quantifier": "all executions, all clients, all connections, everything that can be sent", "why_tests_cant": "a test sees what some clients get in some executions; this says what all of them get in all, and that there is nothing else", "anchors": ["src/broker/client_packet_handler.rs: run, on_packet, on_connect, on_publish, on_subscribe, on_unsubscribe, on_ping_req", "src/broker/messaging/messaging_service.rs: senders_to_publish"]}
{"id": "C185", "title": "The trace of the transport tells lengths, not texts", "statement": "With the TRACE records of the transport switched on, packets are read no differently. For every packet read the records give the lengths in bytes of its texts, in their order (of a CONNECT first the name of the protocol, then the client id, the user name and the password), and nothing else of them; of something that is no packet they give the lengths of the texts that were begun. The lengths can be told from the records.", "quantifier": "all states of the broker, all bytes however they arrive, all packets", "why_tests_cant": "concerns all texts of all packets and all ways of reading them", "anchors": ["src/mqtt/transport/mqtt_bytes_stream.rs: get_string, get_bytes", "src/mqtt/transport/packet_decoder.rs: read_packet, decode_connect, decode_publish, decode_subscribe, decode_unsubscribe"]}
