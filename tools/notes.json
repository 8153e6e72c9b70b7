{
 "C01": "Encoder and decoder composed, every n < 2^21, any bytes after the field.",
 "C02": "All byte streams: value of a 1-3 byte field (at most 2097151), or four bytes consumed and rejected, or the stream ended. A second theorem shows that checking every u64 operation for overflow changes nothing.",
 "C03": "The code violates the property: every length needing four bytes is rejected (_fails, for the whole range). _partial: lengths below 2^21, minimal or not, are accepted. _iff: exactly the length fields of at most three bytes are read.",
 "C04": "Bytes written equal the layout of Spec/Wire for every packet the server sends.",
 "C05": "For every legal PUBLISH below 2^21 bytes and any following bytes.",
 "C06": "For every byte stream accepted as a PUBLISH; byte-identical when the received length field was minimal.",
 "C07": "For every legal client packet without a will, any following bytes.",
 "C08": "Induction over the sequence of packets.",
 "C09": "The code violates the property: no CONNECT with a will is decoded as what it means (_fails, for all such packets). _partial: CONNECT without will. _iff: a legal CONNECT is decoded as what it means exactly if it has no will.",
 "C10": "Whatever is accepted is well-formed (inversion of the decoder), plus rejection theorems for the listed malformations. C10_language is exact: the decoder accepts these byte strings and no others; C10_malformed_iff: it finds these malformed and no others.",
 "C11": "The code violates the property: three families of panicking inputs (_fails). _partial: complete list of the ways to panic; C11_panics_iff: exactly which byte strings make it panic.",
 "C12": "The code violates the property: PINGREQ ignores its announced length (_fails, for all lengths). _partial: PUBLISH, SUBSCRIBE and UNSUBSCRIBE respect it.",
 "C13": "Simulation between the buffered reader and the plain byte list, for any number of packets; the exception (the reader spins) is as in the statement, and absent below the buffer size (_small).",
 "C14": "The code violates the property: a legal PUBLISH makes the reader spin in every build (_fails). _partial: connections that sent fewer bytes than the buffer holds.",
 "C15": "The code violates the property for every payload above 4096 bytes, at every stream position (_fails). _partial: packets within the first 4096 bytes of a connection.",
 "C16": "All packet sequences, all socket behaviours, all buffer sizes; a truncated script gives the state at any moment.",
 "C17": "All packets of the kinds the server sends, after any earlier writes including failed ones.",
 "C18": "The code violates the property: a partial write leaves bytes in the buffer although success is reported (_fails); so does every write shorter than the packet, for packets that fit the buffer. _partial: sockets that accept as many bytes at a time as the buffer was made for, packets of any length; sockets that accept all that is sent.",
 "C19": "Every history of subscribe/unsubscribe/disconnect/connection-lost requests, every plain topic; exact number of deliveries per client. _standard: against MQTT's own bookkeeping for clients without repeated subscriptions (see C22).",
 "C20": "The code violates the property for every plain topic (_fails). _partial: topics strictly below the parent, any history. _missed_iff: exactly which messages MQTT wants delivered are missed, for a client holding one filter: those to the parent level of its '/#'.",
 "C21": "The code violates the property for '#' and every topic, and for '+' and every one-level topic (_fails). _partial: filters starting with a literal level. _unwanted_iff: exactly which messages are delivered though MQTT forbids it: '$' topics matched by a filter beginning with a wildcard.",
 "C22": "The code violates the property: n subscriptions give n copies (_fails, for every n, filter and matching topic). _partial: clients that do not repeat a subscription. _standard_iff: the copies are MQTT's on all plain topics iff every useful filter is held as often as MQTT wants.",
 "C23": "The code violates the property after a repeated subscription (_fails, for every filter and matching topic). _partial: clients that do not repeat a subscription. _unsubscribe_iff: exactly when the filter was held at most once.",
 "C24": "The code violates the property after a repeated subscription (_fails). _partial: clients that do not repeat a subscription; _counts gives the general rule. _disconnect_iff: exactly when every useful filter was held at most once.",
 "C25": "All topics, wildcard ones included; list of receivers of the other clients unchanged in number and order; and deliveries depend on the client's own requests only.",
 "C26": "Swapping two neighbours anywhere in a history, hence any reordering that keeps each client's own order.",
 "C27": "All topics, receiver lists identical; also for clients without subscriptions that disconnect.",
 "C28": "The code violates the property: whatever the filter, a PUBLISH on that very text reaches its subscriber (_fails), on '+' twice (_twice_fails). _partial: such a PUBLISH reaches only clients holding a filter that matches its text and changes nothing. _delivered_iff: exactly who gets such a message.",
 "C29": "Answer in every state (_suback); subscription in force afterwards, for every history and plain topic (_effective).",
 "C30": "Every state; C30_effective for every history. The general effect of an UNSUBSCRIBE on the subscriptions, also for filters subscribed to twice, is C23.",
 "C31": "Every state, and in terms of histories (_history).",
 "C32": "Exact number of copies per connection after any history; plain topics against MQTT matching (_fan_out), all topics, wildcard ones included (_any_topic).",
 "C33": "Every state, CONNECT and identity provider.",
 "C34": "Every state, CONNECT and identity provider.",
 "C35": "The code violates the property: a refused connection can publish to others, end another client's session and crash the handler (_fails). C35_refused_publishes_fails and C35_refused_silences_fails show it on whole executions, from the bytes the clients send, for every identity provider and every pair of refused credentials. _partial: no packet ever creates or alters a session or, apart from DISCONNECT, ends one. The code violates the property: a refused connection can publish to others, end another client's session and crash the handler (_fails). C35_refused_publishes_fails and C35_refused_silences_fails show it on whole executions, from the bytes the clients send, for every identity provider and every pair of refused credentials. C35_ignored_fails: in any two executions with the same events, whether the logins of some clients are refused or accepted makes no difference to any connection those clients do not use. _partial: no packet ever creates or alters a session or, apart from DISCONNECT, ends one.",
 "C36": "Invariant over all histories.",
 "C37": "The code violates the property: the old connection is never told anything (_fails). _partial: messages go to the new connection only. _never_fails: in no execution is a connection told to close because of a takeover.",
 "C38": "The code violates the property: 'session present' is never set and DISCONNECT discards subscriptions (_fails). _partial: a client reconnecting without DISCONNECT keeps its subscriptions. _never_fails: in no execution does a CONNACK say that a session is present.",
 "C39": "The code violates the property in every state (_fails). _partial: QoS 0 publishes are rightly not answered. _never_fails: in no execution is anybody sent a PUBACK, PUBREC, PUBREL or PUBCOMP.",
 "C40": "The code violates the property (_fails). _partial: never more than the QoS of publication, so QoS 0 messages are never upgraded. _iff: at rest, exactly which connections are sent more than QoS 0, though QoS 0 is what is granted. C40_ignored_fails: in every execution, executions that differ in the QoS asked for only send every connection the same.",
 "C41": "The code violates the property in every state (_fails). _partial: a message with the retain flag reaches current subscribers like any other. _never_fails: in no execution does anybody get a message published before the first SUBSCRIBE.",
 "C42": "The code violates the property in every state (_fails). _partial: a second CONNECT has no effect at all. _never_fails: in no execution is a connection told to close for a further CONNECT.",
 "C43": "The code violates the property, in two ways. _no_password_fails: whenever the handler is at rest, a new connection sending any legal CONNECT with a user name and no password crashes it. _refused_fails: so does a refused CONNECT followed by PINGREQ, SUBSCRIBE or UNSUBSCRIBE. _partial: for every input, fragmentation and schedule these (and their variants with a connection told to close by PINGREQ) are the only ways. C135 shows that all of these do crash it.",
 "C44": "All inputs and schedules: a PUBLISH being sent out never meets a closed channel, and the event a crash happens on is never a PUBLISH.",
 "C45": "Every state with a crashed handler and every continuation.",
 "C46": "Every connection whose bytes do not begin with a well-formed CONNECT (Spec/Wire), every schedule; the rest of the system is the same as if the steps of that connection were left out.",
 "C47": "All inputs, fragmentations and schedules.",
 "C48": "Refinement: all inputs, fragmentations, write outcomes and schedules. The sequential broker is Spec/Broker.lean. _nothing_lost: at rest all of it has been sent.",
 "C49": "All executions. Each delivered message is given its origin (connection, position among its packets); positions do not decrease per connection. Messages of one PUBLISH to several subscriptions share the position.",
 "C50": "All executions.",
 "C51": "All executions.",
 "C52": "The code violates the property: one subscriber that does not read and 32 messages stop the handler for ever and for everybody (_fails, for every environment and every behaviour of all other connections). _partial: this is the only way it gets stuck; it takes at least 34 packets due to that connection, 34 suffice (C52_at_least_34_partial, C52_exactly_34_fails), and under a fair schedule everything is handled if no connection is ever due more than 33 packets (C52_tolerated_partial).",
 "C53": "All reachable states.",
 "C54": "The code violates the property: the listener never reports a lost connection; the session and subscription of a closed connection stay for ever (_fails). _partial: the handling of the event, which never comes, would remove the session.",
 "C55": "The code violates the property: a stuck handler (C52) never stops (_fails). _partial: from every reachable state it can be brought to a stop, unless crashed or stuck.",
 "C56": "Acceptance, credentials, and existence and uniqueness of the division into lines; both behaviours of str::lines at the end of the text.",
 "C57": "Hashing library is a parameter; success and 'unknown user' characterised in terms of the file's lines.",
 "C58": "The code violates the property in every state (_fails). _partial: a CONNECT with a user name gets a session only if it authenticates. _iff: at rest, exactly which connections are welcomed.",
 "C59": "The code violates the property: the tool's pattern is not anchored, so setting bob's password overwrites rebob's (_fails). _partial: files where no other name ends like the user's, ignoring case. That the tool's hash verifies the password is a hypothesis about the hashing library. The exact condition on the file is C59_set_works_iff.",
 "C60": "Violated like C59 (_fails). _partial: files where no other name ends like the user's. The exact condition on the file is C60_others_iff.",
 "C61": "Violated like C59; the resulting file may even be rejected by the broker (_fails). _partial: files where no other name ends like the user's. The exact condition on the file is C61_delete_works_iff.",
 "C62": "The replacement expands to the text itself, whatever was matched; and the entry appears in the file literally.",
 "C63": "Exact threshold; f32 arithmetic shown exact for all 65536 values under any rounding that keeps representable values.",
 "C64": "Three theorems, one per clause.",
 "C65": "The code violates the property: nothing depends on elapsed time and nobody asks for overdue sessions (_fails). _partial: the unused function names exactly the overdue sessions. C65_ignored_fails: in every execution, executions that differ in keep-alives and times only send every connection the same.",
 "C66": "Over all sequences of messaging operations, and over all histories of client events.",
 "C67": "The code violates the property in every state (_fails). _partial: the operation the broker itself uses answers with the connections of the matching sessions.",
 "C68": "Any two identity providers and any two failing logins, in any two states.",
 "C69": "Existence, uniqueness and injectivity of the split.",
 "C70": "The code violates the property: after a failed write the next packet is appended to a truncated one (_fails). _failed_write_partial: as long as all packets together are smaller than the buffer nothing is lost, whatever writes fail. _pieces_partial: the wire is a sequence of pieces, one per packet in order, each a part of its packet and the whole of it if its write reported success.",
 "C71": "For the packets handed to the connection and, unless a write failed, for the bytes on the wire.",
 "C72": "Prefix at every moment, equality at rest.",
 "C73": "Reached: the session of the subscriber is on that connection (Spec ReachedOn).",
 "C74": "Refused includes the CONNECT that crashes the broker.",
 "C75": "For every continuation of the schedule.",
 "C76": "The code violates the property: a PUBLISH after DISCONNECT on the same connection is relayed (_fails). _partial: a PINGREQ after the DISCONNECT, if the client has not connected again, makes the broker close the connection.",
 "C77": "C77_any_length_iff: both directions, any bytes, any number of them; C77_any_possible adds what is sent and written. C77_orders_iff and C77_any_servable are the same for connections below 4096 bytes, in terms of what the bytes stand for. C77_any_interleaving and C77_in_stages: for sockets that take no write at all, and at most 32 packets to each connection. The number of writes needed depends on the sequence only.",
 "C78": "Proved by a lexicographic measure that every state-changing step lowers.",
 "C79": "Each of the four ends is described exactly; crashes and stuck readers are possible (C43, C13). _received: stated with what can be received through the 4096-byte buffers, so that it is exact also for connections whose read task spins.",
 "C80": "C80_received for any bytes, any number of them; C80_everything_delivered for fewer than 4096 bytes, in terms of what the bytes stand for, C80_clients for lists of legal packets. The other limits are part of the statement; without them C43, C13, C47 apply. The bound on the writes needed exists for every input and does not depend on the schedule. C80_process and C80_process_received are the same for the whole process (listener, threads, channels), where the accept loop and the tasks share the scheduler; fewer readers may spin than there are threads (C86).",
 "C81": "With figures: C81_events bounds the events (and filters subscribed to) by the bytes sent; C81_square bounds the packets sent by the square of the bytes, for messages on topics without wildcards (with wildcards the bound is exponential, see C120). C81_square_reached: the square is reached, so the bound cannot be improved beyond a constant.",
 "C82": "Two theorems: every execution of the process is one of the system of C48 restricted to accepted connections; and conversely for input that can be read to its end.",
 "C83": "Proved as an invariant over all schedules. The panics of settings and bind at start-up are not modelled.",
 "C84": "The code violates the property: one connection whose read task spins keeps the process alive for ever (_spinning_fails), and so does the stall of C52 (_stalled_fails). During start-up ctrl-c kills the process (_starting_fails). _partial: the first two are the only ways once the broker is ready. C84_ends_well_partial: with clients as in C80_process a ctrl-c always ends the process. C84_spinning_partial: the same for clients that send any number of bytes, as long as no read task spins. _ctrl_c_partial names the connection whose reading does not come to an end.",
 "C85": "The code violates the property: after a crash of the handler the process goes on accepting connections until ctrl-c (_fails). _partial: it then never ends well, and with ctrl-c and a fair schedule it does end if no read task spins.",
 "C86": "The code violates the property: as many unauthenticated connections as there are worker threads freeze everything for ever, from every state (_fails). _partial: fewer connections with 4096 bytes or more than worker threads do no harm to the others. C86_spinning_partial: the same without a bound on the bytes: fewer connections that really make their read task spin than worker threads do no harm, and of every connection exactly that is handled which can be received.",
 "C87": "The code violates the property: from every quiet state ctrl-c can end the process at once, dropping all queues (_fails). _partial: no event is cut in the middle.",
 "C88": "Both directions: every execution with a separate messaging task is one of the system model, and conversely, with equal connections, logs and messaging state.",
 "C89": "Requests are answered; the causes of a crash and of waiting are listed exhaustively.",
 "C90": "The code violates the property: a topic or payload across byte 4096 of the connection makes the reader spin (_small_messages_fails, for all earlier packets and messages); sending the 18-byte message of the repository's own test 228 times does it (_test_message_fails). _bare_partial, _small_messages_partial: packets without text or payload are received in every state of the buffer.",
 "C91": "_split_partial: full equality of outcomes for releases of `bytes` whose `advance` leaves an emptied view where it is. The code violates the property with releases that reset an emptied view (_split_fails): 2040 PINGREQs and one 18-byte message are received or hang the reader, depending on the segments.",
 "C92": "_window: the equivalence, against windows computed from the packet formats alone (Spec/Fields.lean). _divisor: packets of one length that divides 4096 are received for ever. Hypothesis: clearOnFullAdvance = false.",
 "C93": "Proved at process level (C93_noninterference, C93_quiet) and for the sequential broker (C93_group). It concerns what is received, not when: a client that does not read stalls everybody (C52, C86). Hypothesis: the group's client ids are not used by the others (with the same id, take-over is the specified behaviour).",
 "C94": "Violated (C94_memory_fails): no node is ever removed and UNSUBSCRIBE creates nodes; n clients that unsubscribe from a filter each and leave cost n nodes for ever. What holds (C94_nodes_partial): the exact number of nodes after any execution: one for the root and one for each beginning of the levels of a filter ever named in a SUBSCRIBE or UNSUBSCRIBE. Missing: removal.",
 "C95": "Violated (C95_flags_fails): the PUBLISH is relayed as it came in, DUP and RETAIN included. What holds (C95_flags_partial): the broker never sets either flag by itself. Missing: clearing them. _iff: at rest, exactly which connections are sent such messages.",
 "C96": "Violated (C96_packet_ids_fails): publishers' packet ids are passed on, so two publishers using the same id collide at the subscriber. What holds (C96_packet_ids_partial): an id is present exactly when QoS is above 0; and ids are distinct if those of all messages published are and the connection's subscriptions do not overlap. Missing: ids chosen by the broker.",
 "C97": "Violated (C97_exactly_once_fails): the publisher gets no PUBREC (C39), must send again, and the subscriber gets the message twice. What holds (C97_exactly_once_partial): a connection whose subscriptions do not overlap is sent messages at most as often as they were published. Missing: recognising retransmissions.",
 "C98": "Violated (C98_protocol_fails, C98_reserved_flag_fails): name, level, the reserved flag and the will flags are read and ignored, for every value. What holds (C98_protocol_partial): MQTT 3.1.1 is accepted. C98_never_fails: in no execution is the code for an unsupported protocol sent; whoever is refused gave a wrong login.",
 "C99": "Violated (C99_filter_fails, C99_topic_fails): nothing is validated. What holds (C99_filter_partial): misplaced wildcards do no harm; every message on a topic without wildcards is called for by a filter with its wildcards in the right places. Missing: rejection. C99_never_fails: in no execution is a filter refused; at rest every SUBSCRIBE has been granted in full.",
 "C100": "C100_common_order (the order exists and explains what everybody has been sent) and C100_no_reversal (its consequence for two receivers). For the process by C82_process_is_broker.",
 "C101": "C101_order_grows: the common order of C100 grows only at its end and contains only messages dealt with; C101_causal is the consequence. A client that answers a message sends its PUBLISH after having received it, so the broker has not dealt with it before.",
 "C102": "C102_client_view: a refinement of the whole broker, seen from one connection, to Spec.View. Exact when the handler is at rest, a prefix otherwise. Needs that no other connection uses the client id (else C36 applies).",
 "C103": "C103_only_while_subscribed. 'Subscribed' is the list of filters of Spec.View: a filter subscribed to n times needs n UNSUBSCRIBEs (C22).",
 "C104": "C104_suback_promise, for a client with a client id of its own. 'Sent' means handed to the connection (C48 and C80 for the socket).",
 "C105": "C105_hung_up_only holds at any time, C105_hung_up_exactly when all is done. Closing means that the write task has ended and dropped the write half of the socket. C105_told_closed: those told to go away are closed in the end whatever has become of the handler.",
 "C106": "Violated: the read task ends, but nobody tells the handler; the session keeps a sender, so the write task waits for ever and the client gets no end of file: C106_violation_fails, C106_never_closed_fails, for every client that was accepted and has not disconnected. What holds: nothing behind the violation is processed, and the connection is closed if no client is reached on it. The reading ends if the connection can be read to its end, in particular below 4096 bytes. C106_closed_iff: at rest, a connection has been told to close exactly if it gave a wrong login or sent a PINGREQ under a client id without session.",
 "C107": "The code violates the property: if behind the DISCONNECT there is a packet that cannot be received through the buffer (such as a PUBLISH of 5000 bytes) the read task goes round a loop for ever although the client closed its side (C107_unreceived_fails, C107_freed_fails). Holds (_partial) for all connections that can be read to their end, in particular below 4096 bytes: C107_freed_partial, when all is done; C107_freed_in_the_end_partial shows that this comes about, and characterises the connections of which nothing is left.",
 "C108": "C108_refused_closed; the closing if the CONNECT has been handled and the socket takes the CONNACK, whatever follows and whatever becomes of the handler then (see C43). No bound on the bytes.",
 "C109": "Violated for CONNECT, PINGREQ and DISCONNECT, whose low four bits are never looked at: C109_flags_fails. C109_flags_partial: for every other type, including PUBLISH with QoS 3 and types a client may not send, bytes with forbidden flags are never decoded as a packet. _flags_iff: exactly the types CONNECT, PINGREQ and DISCONNECT are concerned.",
 "C110": "Violated: a SUBSCRIBE with id 0 is served and acknowledged (C110_subscribe_zero_fails), a QoS 1 or 2 message with id 0 is passed on (C110_publish_zero_fails). C110_ids_partial: whenever the broker sends a packet with id 0, some client has sent one with id 0. _iff: at rest, exactly which connections are sent packets with id 0.",
 "C111": "Violated: every such CONNECT can be accepted (C111_password_alone_fails). C111_password_partial: without user name the password makes no difference to the packet handler, in any state. C111_welcome_fails: in every execution at rest, connections without user name have been welcomed, with or without password.",
 "C112": "Violated in its second half: C112_no_id_fails. C112_generated_id_partial: an accepted client without id that does not disconnect is reached under the generated id on its own connection once its CONNECT is handled, if no other connection uses that id (uuids are inputs of the model). C112_never_fails: in no execution is a client id refused.",
 "C113": "Violated: the will is never published, whatever happens (C113_will_fails, for CONNECTs with a will, without user name, below 4096 bytes, while nobody else publishes). C113_will_partial is the half about DISCONNECT: nobody receives a message nobody has published.",
 "C114": "C114_ack_ignored for the packet handler in any state; C114_acks_unseen for the whole broker: what was delivered is what the sequential broker sends for the events without the acknowledgements.",
 "C115": "The code violates the property: listeners accept as soon as they are bound, so whatever the broker can do can happen before the start fails at the second address (_served_first_fails); a client of the first address can keep the failed process alive for ever (_lingers_fails); with no address at all it announces to be ready (_deaf_fails). _ready_partial and _failed_bind_partial: when ready, it listens on all addresses; after a failed bind it never becomes ready and does not end well.",
 "C116": "C116_launch: an equivalence, and the state in which the process then is.",
 "C117": "C117_boot_is_process: both directions, by a simulation in which the addresses not yet bound are listeners to which nobody has connected yet.",
 "C118": "C118_access: for every launch, every schedule from then on, every connection.",
 "C119": "The code violates the property, since the tool damages files in which one user's name ends like another's (C59, C61): C119_set_password_fails. _set_password_partial and _delete_user_partial exclude that case.",
 "C120": "Violated: a client that subscribes to +/+/…/+ with n levels and publishes to that topic name makes the packet handler send 2^n copies, during which it serves nobody; the walk holds 2^n nodes at once in a tree of n+1. Holds for messages whose topic has no wildcards, and for all other packets.",
 "C121": "Proved for every execution. The number of filters in one SUBSCRIBE is not bounded by it, see C122.",
 "C122": "Violated: an inner length may reach past the announced one, and a CONNECT ignores it. In builds without overflow checks a SUBSCRIBE or UNSUBSCRIBE announced to end inside its first filter takes everything that follows, up to 2^63 bytes, as further filters of itself. With overflow checks at most 65538 bytes (262152 for CONNECT) beyond the announced ones are waited for.",
 "C123": "Violated: the password is read as text, so a CONNECT with a password that is not UTF-8 is malformed; the connection is closed without an answer. Holds for passwords that are text. _password_iff: exactly the passwords that are UTF-8 arrive.",
 "C124": "Proved.",
 "C125": "Proved.",
 "C126": "Violated: std::fs::write truncates the file before writing, so there is a moment at which the file is empty; a broker started then accepts it and refuses every client that gives a user name for as long as it runs. Otherwise the file holds the old or the new content, and it is left alone if the tool panics or there is nothing to delete. C126_pieces_partial: call by call, however reads and writes are split or fail, the file holds the old content or a beginning of the new one.",
 "C127": "Violated: the tool reads the file first and panics if it cannot. With an empty file in place it works.",
 "C128": "Proved. From it follow exact conditions for C59, C60 and C61: C59_set_works_iff, C60_others_iff, C61_delete_works_iff.",
 "C129": "Proved, with the crates config, serde and dotenv modelled as documented.",
 "C130": "Violated: the addresses to listen on are a list, the value of a variable is a text; if RATELMQ_MQTT__LISTENERS_TCP is set, to whatever value, the broker panics at its start. Holds for the password file (C129); the addresses are always those of the configuration file.",
 "C131": "Violated: if any variable of the environment, whatever its name, is not Unicode, the broker panics at its start. Holds for Unicode variables whose names do not begin with RATELMQ_MQTT or RATELMQ_AUTHENTICATION.",
 "C132": "Proved; the rules are iffs for each fate (C10_language, C10_malformed_iff, C11_panics_iff). In builds without overflow checks, for less than 2^64 bytes.",
 "C133": "Proved, over the model of the tasks and the two kinds of bounded channels; a turn of a write task writes one packet to the end, a turn of the handler takes one event or sends one packet.",
 "C134": "Proved, over a model of tokio's bounded channel as a queue with a first-come-first-served semaphore.",
 "C135": "Proved, both directions, for any number of bytes: C135_any_length_iff; C135_crash_iff is the same below 4096 bytes, in terms of what the bytes stand for. The number of writes the sockets must take depends on the sequence only.",
 "C136": "Proved: a simulation in both directions between the model with arrivals as steps (Model/Open) and the system. It rests on the fact that reading a packet that is there, and writing one the socket takes, does not depend on what comes after (Proofs/Later).",
 "C137": "Proved in terms of the bytes clients have read; for what clients read as packets it uses C139.",
 "C138": "Proved: C104 with 'afterwards' meaning real time: bytes read before, bytes arriving after.",
 "C139": "Proved. For PUBLISH it needs that the topic fits its length field and that there is a packet id exactly if QoS > 0, which holds for everything the broker relays (C06).",
 "C140": "Proved: each function of the combined stream, transcribed separately, is the function of the half; so all that is proved of the halves (C13 to C18, C70, C90 to C92) holds of it.",
 "C141": "Proved by induction over the changes.",
 "C142": "Violated: the clean-session flag is never looked at. For every history after which the client id still holds a subscription (its connection broke without DISCONNECT), a matching PUBLISH is sent to the new connection; also shown for a whole execution from bytes to deliveries. What holds: if the id holds no subscription when it connects, every message sent to its connection matches a filter it subscribed to since; this is the case after a DISCONNECT if the client never subscribed to a filter it already held. C142_ignored_fails: in every execution, executions that differ in clean-session flags only send every connection the same.",
 "C143": "Proved, by progress lemmas for each task composed over the endless execution; in the model with waiting list (C134) and reacting clients (C136). The broker does not crash while every CONNECT is accepted and nobody pings or nobody disconnects; a reader does not spin below 4096 bytes.",
 "C144": "Proved, from C138 and C143. Written means passed to the write stream: the last bytes may remain in its buffer after a partial write (C18), but not if the socket always takes at least 4096 bytes (C143_on_the_wire).",
 "C145": "Proved, from the view of one client (C102), the transfer to clients that react (C136) and the progress of endless executions (C143). The number of copies counts repeated subscriptions, and filters that match through '#' or '+' as often as the broker does (ways).",
 "C146": "Proved, from the view of one client (C102) and the progress of endless executions (C143).",
 "C147": "The code violates the property: sessions are removed by client id, so an earlier DISCONNECT dealt with after the new CONNECT removes the new session; C147_overtaken_fails shows that no message is sent on the new connection ever after, C147_reconnect_fails is an execution in which the client has read CONNACK and SUBACK, loses a message and then brings the broker down with two PINGREQs. Proved when everything on the earlier connections has been dealt with before the new CONNECT and no subscription is left (C147_afresh_partial for any number of earlier connections, C147_reconnect_partial for one; heldAfter_disconnect: none is left after DISCONNECT if no filter was held twice).",
 "C148": "The code violates the property: the session keeps the sender of the connection, and nothing ends it but DISCONNECT. C148_leak_fails: for every N, N clients that connect without a client id and go away leave N sockets that are kept for ever, under every fair schedule. Holds: at rest at most one socket is kept in vain per client id that was accepted and has not disconnected since (C148_bound_partial); after DISCONNECT none (C107).",
 "C149": "The code violates the property: the sockets of clients that went away without DISCONNECT are kept (C148) and count. C149_exhausted_fails: for every limit F, if more than F clients connect without a client id and go away, then in the end exactly F of them have been accepted, all these are gone, and the others ask in vain for ever. Holds (C149_accepted_partial): in the end every connection that asks is accepted, or the handler crashed on an event known to be fatal, or it waits for a socket (C52), or F sockets are in use as far as the broker can tell: being read, being written, or assigned to a session.",
 "C150": "The code violates the property: the tool reads the file, computes, truncates and writes, without a lock or a rename. C150_lost_fails: for every password file and any two users, the first user's new password can be lost though both runs end well. C150_mixed_fails: if both truncate before either writes, the end of the longer content is left behind the shorter one; an example is a file with which the broker does not start. Holds (C150_serial_partial): any number of runs that do not overlap, however their reads and writes are split.",
 "C151": "The code violates the property: the file is truncated before it is written. C151_failed_fails: every beginning of the new content, among them the empty one, can be what is left, for every file, user and password. C151_failed_iff: these and the old content are all the possibilities. Holds (C151_unreadable_partial) for failures because the file does not exist or is not text.",
 "C152": "No hypothesis about the client or the others, in contrast to C146; in exchange it says nothing about answers coming.",
 "C153": "The code violates the property: the file is read when the broker starts, and at no other time. C153_deleted_fails: for every file, every user in it and every fitting password, a user deleted while the broker runs is still accepted afterwards. Holds (C153_since_start_partial): CONNECTs are judged by the file as it was at the start of the broker, whatever the tool does later; so changes take effect when the broker is started anew.",
 "C154": "The code violates the property: after a CONNECT and 226 messages of 18 bytes the next one is handled in no execution (_lasting_fails; for all peers besides). _lasting_partial: handled are exactly the packets before the first that lies across a buffer window, and everything due is sent, in any number and for any fair schedule; _process_partial: the same for the whole process if fewer connections run into such a packet than there are worker threads. Hypothesis of the partial forms: clearOnFullAdvance = false.",
 "C155": "The code violates the property: config/ratelmq.toml names /etc/ratelmq/passwd, which the image does not contain; the main task panics before it opens a port (_image_fails). _image_partial: it starts exactly if a well-formed password file is there, or where RATELMQ_AUTHENTICATION__PASSWORD_FILE says, and then opens 0.0.0.0:1883. What TOML makes of the shipped text is a hypothesis; the search of the crate config for the file is modelled as documented.",
 "C156": "The code violates the property: if the file named is missing, a file with the extension toml in its place is used without any error (_other_file_fails, for every name with an extension). _named_partial: a file that is there is used; with a name ending in .toml nothing else is. The search is that of the crate config 0.10, modelled as documented. _named_iff: exactly when another file is read in place of a missing one.",
 "C157": "The code violates the property at level TRACE: every password is shown as soon as its CONNECT is read (_password_fails, from the bytes, in every execution) and again, with all contents of messages, when handled (_all_fails). _debug_partial: with DEBUG or coarser the log is the same for any two executions that differ in secrets only (noninterference). What {:?} makes of socket addresses, senders, I/O errors and characters outside ASCII is a parameter. _process_: the same from the start of the process on. _rules_partial, _rules_fails: for all lists of rules in RUST_LOG, single modules included, which of them are safe.",
 "C158": "Refusals are read from the records by a parser given in the specification; the theorem says that it finds those of the handled CONNECTs, neither more nor less. _process: the same from the start of the process on.",
 "C159": "Rests on the default format of env_logger 0.8, modelled as documented: lines of a message after the first are indented by four spaces. _same_text: equal texts mean equal refused logins.",
 "C160": "The code violates the property: two records show a text with {} instead of {:?}: the user name of a refused login at INFO (_user_name_fails) and the client id of a PINGREQ without session at ERROR (_client_id_fails), both from the bytes, unauthenticated. _control_partial: no other record of the modelled code contains any. _process_partial: the same from the start of the process on.",
 "C161": "The code violates the property: executions that differ in the users of accepted CONNECTs only leave the same log at DEBUG (_who_fails, for all executions). _trace_partial: at TRACE a record with both names is there. _process_fails: the same from the start of the process on.",
 "C162": "_life: what has been said as a function of the state of the process (invariant over steps); also that nothing but the first line is written at INFO by the main task when settings or password file cannot be used. _addresses: the addresses.",
 "C163": "The code violates the property: when all sockets the operating system allows are in use (C149: connections whose clients are gone keep theirs) accepting fails again and again at once, and each time a record of level ERROR is made; the log grows beyond every bound (_flood_fails). _quiet_partial: with no limit on sockets every execution with finitely many connections, fair or not, comes to a point after which nothing is logged.",
 "C164": "Simulation: the listeners of the second process stop when the last one of the first does. _any_addresses: from the start of the process on, once ready.",
 "C165": "_versions_partial: on connections with fewer than 4096 bytes the same sequences of events with the same answers are possible. _any_length_partial: the same for connections of any length on which as many packets fit into the windows of the read buffer in the one version as in the other (releases of `bytes` that leave an emptied view where it is). _fails: the two bytes by which the CONNECT of MQTT 3.1 is longer shift everything that follows against the window of the read buffer (C90); a message that ends with byte 4096 is received from the one client, and makes the reader of the other spin.",
 "C166": "_closed_partial: a connection of any number of bytes and no CONNECT as first packet is gone once its read task and then its write task had a turn, in whatever state the rest of the broker is, unless reading its first packet through the buffer does not come to an end. _short_partial: below 4096 bytes that happens only if it is mute: what came is at most the beginning of a packet, and the client keeps the connection open. _fails: a connection whose first packet does not come to an end is never closed; once there are as many of them as the process may have sockets nobody else is ever accepted, and that can be brought about from the start.",
 "C167": "_partial: while the socket takes all of the buffer or keeps the write waiting, the buffer stays an allocation of 4096 bytes; the channel holds at most 32 packets with parts of at most 4096 bytes (this part for all sockets). _fails: finish_packet and write_buffer_if_too_small make a single write and do not ask how much of the buffer it took. With a socket that takes one byte at a time, n senders of a message of m bytes make the buffer hold n*(m-10) bytes at least, for every n, with no write failing or waiting; hence no bound at all, although no client sends more than 80 bytes.",
 "C168": "C168_only_packets is proved outright. _pieces_partial: for the same bytes in other pieces with releases of `bytes` that leave an emptied view where it is, or fewer than 4096 bytes. _clients_partial: for legal packets with the same meaning of which as many fit. _pieces_fails: with releases that reset an emptied view, a client that sends CONNECT, 2032 PINGREQs and a message of 18 bytes can be served in full if the bytes of the PINGREQs come one by one, and not if all come at once.",
 "C169": "Proved for connections of any length and all releases of the library: what can be read from a stream can be read from it when more follows (Proofs/More), and the orders that can be served depend on that alone (C77).",
 "C170": "_records_partial: for each execution the exact number of records of the packet handler and of the messaging service from the events it took, and at most one record per step of anything else. _sessions_partial: at most one record per event while only clients with a session hold subscriptions. _flood_fails: k clients send DISCONNECT and then SUBSCRIBE; each message on the topic makes k warnings, so k + n connections of three packets make n * k records. _no_bound_fails: no number of records per packet is enough.",
 "C171": "_own_messages_partial: if no client id is used with two users, every message sent on a connection was asked for on a connection whose CONNECT named the same user. _takeover_fails: for every identity provider, every user it accepts and every CONNECT with the same client id that is accepted (for example one without a user name, C58), the other connection gets the messages the user subscribed to, and the user gets none.",
 "C172": "_version_partial: built from a commit, the version is that of the package and the first ten digits of the commit, and tells commits apart as far as these go. _starts_iff: for ASCII output, the broker starts exactly if the first line has at least ten characters. _no_commit_fails: in a repository without a commit git prints HEAD and fails; the exit status is not looked at, the build succeeds and the broker panics at every start. _no_repository_fails: outside of a repository (a source archive) or without git the build fails. How cargo reads the output of the script is modelled as documented.",
 "C173": "_events: executions with the same records of the packet handler handled the same, and refused the same logins for the same reasons. _state: so the same clients have sessions and the same subscriptions are held, or both have crashed. _text: the same from the text of the log of the whole process. Addresses and connections are left out: how libraries show them is a parameter. {:?} of texts, bytes, numbers, options, vectors and structures is modelled as derived or documented.",
 "C174": "_names: whatever can be served or crash with the ones can with the others, given that what is received from the ones is received renamed from the others. _names_iff: both ways for renamings that can be undone. _clients: for legal packets without wills below 4096 bytes the assumption about receiving holds. Names starting with $ are included: the broker does not treat them specially (C21). Lengths do have a meaning, because of the windows of the read buffer (C92).",
 "C175": "_clock: two executions of the process, with a limit of open files, whose steps differ in clock readings only are the same except for the times stored in sessions; also the records of the log (their time stamps are not part of the model). It holds because nothing looks at the stored times (C65).",
 "C176": "_order: the sequential broker. _races: the broker with its tasks and queues; the same order of events as far as exchanged, the same deliveries, the same crashes by a further event, if the sockets take enough writes. The example beside the theorem shows that the order of a SUBSCRIBE and a message on its topic does matter.",
 "C177": "_apart: the sequential broker. _communities: the process, any bytes, as for C93: what the second community is sent is explained by events of its own connections alone. It is about what is sent; that the first can stop the broker for everyone (C43, C52, C86) is not excluded.",
 "C178": "_order: the sequential broker. _more: two executions that have come to rest, the second having handled what the first has and further requests anywhere in between. The requests are events the handler has taken; a broker that is stopped by one of them (C43, C52, C86) does not come to rest.",
 "C179": "The moment is a cut of the list of events the handler has taken; which subscriptions are held at it is counted from the SUBSCRIBEs, UNSUBSCRIBEs and new sessions before it.",
 "C180": "_past_iff: the sequential broker, both directions (the state has no hidden part, and no superfluous part). _executions: two executions of the broker, with any clients, that have handled the same events since a moment at which connections and subscriptions agree. That MQTT wants a subscription held at most once is C22.",
 "C181": "_order: the sequential broker. _opaque: two executions that have come to rest, the second having handled the events of the first with messages exchanged. That the QoS has no influence is what C39 and C40 complain about.",
 "C182": "_order: the sequential broker. _independent: two executions that have come to rest, the second having handled the events of the first but for the messages left out. It is about what is sent, not about when: C52 (a slow subscriber stalls others) stands.",
 "C183": "env_logger 0.8 is modelled as documented, from the text of RUST_LOG on. _rules: parsing undoes writing, and of the rules the right one decides. _level: the log at one level, as used in C157 to C163. _unset: no RUST_LOG. Misspelt levels (which the crate takes for names of modules) are shown in an example.",
 "C184": "_reasons_iff: at rest. _no_more: at any time. How often and in which order is the subject of C48, C72 and C100. C40, C58, C95 and C110 get their exact forms (_iff) from this.",
 "C185": "_unchanged: the decoder with records reads as the one without. _lengths: packets. _whole: whatever is read. _read_back: from the text of the records. _password: with these records on, the length of every password is in the log, though not the password (compare C157)."
}