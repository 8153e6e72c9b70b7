# MQTT 3.1.1, statement by statement

The normative statements of MQTT 3.1.1 that bind a server, as far as the model speaks about them; what is proved about each. 43 of 98 hold,
55 are violated by the code. Generated by `tools/conformance.py`, which checks that the properties and theorems named exist in
MANIFEST.json and that each violation is the subject of a `_fails` theorem. Statements about clients only, about TCP and about WebSockets are left
out. The short wordings are ours.

| Statement | Demands | Verdict | Properties | Theorems | Remark |
|---|---|---|---|---|---|
| [MQTT-1.5.3-1] | ill-formed UTF-8 is not accepted; the connection is closed | **violated** | C10 C106 | `C10_only_well_formed`, `C10_wrong_flags`, `C10_no_payload`, `C106_never_closed_fails`, `C106_violation_fails` | never decoded as a packet, but the connection of an accepted client stays open |
| [MQTT-1.5.3-2] | a string with U+0000 closes the connection | **violated** | C99 | `C99_never_fails`, `C99_filter_fails`, `C99_topic_fails` | null characters are accepted in filters and topics |
| [MQTT-1.5.3-3] | U+FEFF is a character like others | holds | C07 | `C07_client_packets` | strings are decoded as sent |
| [MQTT-2.2.2-1] | reserved flags of sent packets have their prescribed values | holds | C04 | `C04_wire_format` |  |
| [MQTT-2.2.2-2] | invalid flags close the connection | **violated** | C109 C106 | `C109_flags_fails`, `C106_never_closed_fails`, `C106_violation_fails` | not checked for CONNECT, PINGREQ, DISCONNECT; rejected for all others, without closing |
| [MQTT-2.3.1-1] | packet ids are not zero | **violated** | C110 | `C110_subscribe_zero_fails`, `C110_publish_zero_fails` |  |
| [MQTT-2.3.1-4] | a message to a client gets a packet id not in use | **violated** | C96 | `C96_packet_ids_fails` | the publisher's id is passed on |
| [MQTT-2.3.1-5] | a QoS 0 PUBLISH has no packet id | holds | C04 C05 | `C04_wire_format`, `C05_publish_round_trip` |  |
| [MQTT-2.3.1-6] | acknowledgements carry the id of the message | **violated** | C39 | `C39_acks_fails`, `C39_never_fails` | there are no acknowledgements |
| [MQTT-2.3.1-7] | SUBACK and UNSUBACK carry the id of the request | holds | C29 C30 | `C29_suback`, `C29_effective`, `C30_unsuback`, `C30_effective` |  |
| [MQTT-3.1.0-1] | the first packet of a client is CONNECT | holds | C46 | `C46_nothing_before_connect` | nothing happens before |
| [MQTT-3.1.0-2] | a second CONNECT ends the connection | **violated** | C42 | `C42_second_connect_fails`, `C42_never_fails` | ignored |
| [MQTT-3.1.2-1] | a wrong protocol name is not served | **violated** | C98 | `C98_never_fails`, `C98_protocol_fails`, `C98_reserved_flag_fails` |  |
| [MQTT-3.1.2-2] | an unsupported protocol level is answered by CONNACK 1 | **violated** | C98 | `C98_never_fails`, `C98_protocol_fails`, `C98_reserved_flag_fails` |  |
| [MQTT-3.1.2-3] | the reserved CONNECT flag is checked | **violated** | C98 | `C98_never_fails`, `C98_protocol_fails`, `C98_reserved_flag_fails` |  |
| [MQTT-3.1.2-4] | without clean session the stored session is resumed | **violated** | C38 | `C38_persistent_fails`, `C38_never_fails` |  |
| [MQTT-3.1.2-5] | messages for absent clients with a session are stored | **violated** | C38 | `C38_persistent_fails`, `C38_never_fails` |  |
| [MQTT-3.1.2-6] | with clean session the previous session is discarded | **violated** | C142 | `C142_clean_session_fails`, `C142_ignored_fails` | subscriptions of a connection lost without DISCONNECT stay in force |
| [MQTT-3.1.2-8] | the will is published when the connection is lost | **violated** | C113 | `C113_will_fails` |  |
| [MQTT-3.1.2-9] | will topic and will message are read from the payload | **violated** | C09 | `C09_will_decoded_fails` |  |
| [MQTT-3.1.2-10] | after DISCONNECT the will is not published | holds | C113 | `C113_will_partial` | half of C113: no message that nobody published |
| [MQTT-3.1.2-18] | user name flag off: no user name in the payload | holds | C07 | `C07_client_packets` |  |
| [MQTT-3.1.2-19] | user name flag on: user name in the payload | holds | C07 | `C07_client_packets` | without a will; see C09 |
| [MQTT-3.1.2-20] | password flag off: no password in the payload | holds | C07 | `C07_client_packets` |  |
| [MQTT-3.1.2-21] | password flag on: password in the payload | holds | C07 | `C07_client_packets` | if the password is text; see C123 |
| [MQTT-3.1.2-22] | no password without user name | **violated** | C111 | `C111_welcome_fails`, `C111_password_alone_fails` |  |
| [MQTT-3.1.2-24] | keep-alive is enforced | **violated** | C65 | `C65_ignored_fails`, `C65_enforced_fails` | the threshold is right (C63), nobody calls it |
| [MQTT-3.1.3-1] | order of the fields in the payload | **violated** | C09 | `C09_will_decoded_fails` | only with a will; see C07 |
| [MQTT-3.1.3-2] | the client id identifies the session | holds | C36 | `C36_newest_wins`, `C36_one_connection` |  |
| [MQTT-3.1.3-3] | the client id comes first | holds | C07 | `C07_client_packets` |  |
| [MQTT-3.1.3-4] | the client id is UTF-8 | holds | C10 | `C10_only_well_formed`, `C10_wrong_flags`, `C10_no_payload` |  |
| [MQTT-3.1.3-5] | client ids of 1 to 23 letters and digits are allowed | holds | C34 | `C34_accepted` | any client id is |
| [MQTT-3.1.3-6] | a client without id gets a unique one | holds | C112 | `C112_generated_id_partial` | half of C112 |
| [MQTT-3.1.3-8] | no client id and no clean session: refused | **violated** | C112 | `C112_never_fails`, `C112_no_id_fails` |  |
| [MQTT-3.1.3-11] | the user name is UTF-8 | holds | C10 | `C10_only_well_formed`, `C10_wrong_flags`, `C10_no_payload` |  |
| [MQTT-3.1.3.5] | the password is binary data | **violated** | C123 | `C123_binary_password_fails` |  |
| [MQTT-3.1.4-1] | a malformed CONNECT closes the connection without CONNACK | holds | C105 C71 | `C105_hung_up_only`, `C105_hung_up_exactly`, `C105_told_closed`, `C71_connack_first` | for what the decoder rejects; see C98 |
| [MQTT-3.1.4-2] | a new connection with the same client id closes the old one | **violated** | C37 | `C37_takeover_fails`, `C37_never_fails` |  |
| [MQTT-3.1.4-4] | a good CONNECT is acknowledged by CONNACK 0 | holds | C34 C71 | `C34_accepted`, `C71_connack_first` |  |
| [MQTT-3.1.4-5] | nothing a refused client sends is processed | **violated** | C35 | `C35_refused_acts_fails`, `C35_refused_publishes_fails`, `C35_refused_silences_fails` |  |
| [MQTT-3.2.0-1] | CONNACK is the first packet sent | holds | C71 | `C71_connack_first` |  |
| [MQTT-3.2.2-1] | clean session: session present is 0 | holds | C34 | `C34_accepted` | it always is |
| [MQTT-3.2.2-2] | session present tells whether there was a session | **violated** | C38 | `C38_persistent_fails`, `C38_never_fails` |  |
| [MQTT-3.2.2-4] | refusal: session present is 0 | holds | C33 | `C33_refused` |  |
| [MQTT-3.2.2-5] | refusal: the connection is closed | holds | C108 | `C108_refused_closed` |  |
| [MQTT-3.3.1-2] | QoS 0: DUP is 0 | **violated** | C95 | `C95_flags_fails` | if the publisher sets it |
| [MQTT-3.3.1-3] | DUP is not passed on | **violated** | C95 | `C95_flags_fails` |  |
| [MQTT-3.3.1-4] | QoS 3 closes the connection | **violated** | C11 C109 | `C11_never_panics_fails`, `C11_unsupported_type_fails`, `C11_short_publish_fails`, `C109_flags_fails` | the read task panics |
| [MQTT-3.3.1-5] | retained messages are stored | **violated** | C41 | `C41_retained_fails`, `C41_never_fails` |  |
| [MQTT-3.3.1-6] | new subscribers get retained messages | **violated** | C41 | `C41_retained_fails`, `C41_never_fails` |  |
| [MQTT-3.3.1-8] | RETAIN is 1 for retained messages | **violated** | C41 | `C41_retained_fails`, `C41_never_fails` |  |
| [MQTT-3.3.1-9] | RETAIN is 0 for existing subscriptions | **violated** | C95 | `C95_flags_fails` |  |
| [MQTT-3.3.1-12] | messages without RETAIN are not stored | holds | C50 | `C50_no_invented_messages` | nothing is |
| [MQTT-3.3.2-1] | the topic name is UTF-8 and comes first | holds | C07 C10 | `C07_client_packets`, `C10_only_well_formed`, `C10_wrong_flags`, `C10_no_payload` |  |
| [MQTT-3.3.2-2] | no wildcards in topic names | **violated** | C28 | `C28_wildcard_topic_fails`, `C28_wildcard_topic_twice_fails` |  |
| [MQTT-3.3.2-3] | a message sent matches a filter of the client | holds | C103 | `C103_only_while_subscribed` | for topic names without wildcards |
| [MQTT-3.3.4-1] | QoS 1 and 2 messages are acknowledged | **violated** | C39 | `C39_acks_fails`, `C39_never_fails` |  |
| [MQTT-3.3.5-1] | QoS does not exceed the one granted | **violated** | C40 | `C40_qos_fails`, `C40_ignored_fails` |  |
| [MQTT-3.6.1-1] | PUBREL flags are checked | **violated** | C106 | `C106_never_closed_fails`, `C106_violation_fails` | a PUBREL with other flags is rejected (C10), without closing |
| [MQTT-3.8.1-1] | SUBSCRIBE flags are checked | **violated** | C106 | `C106_never_closed_fails`, `C106_violation_fails` | rejected (C10), without closing |
| [MQTT-3.8.3-1] | filters are UTF-8 | holds | C10 | `C10_only_well_formed`, `C10_wrong_flags`, `C10_no_payload` |  |
| [MQTT-3.8.3-2] | wildcards are supported | holds | C19 | `C19_matching`, `C19_any_topic`, `C19_matching_standard` | except that '#' does not match the parent level (C20) |
| [MQTT-3.8.3-3] | at least one filter | **violated** | C106 | `C106_never_closed_fails`, `C106_violation_fails` | rejected (C10), without closing |
| [MQTT-3.8.3-4] | a requested QoS above 2 closes the connection | **violated** | C106 | `C106_never_closed_fails`, `C106_violation_fails` | rejected (C10), without closing |
| [MQTT-3.8.4-1] | SUBSCRIBE is answered by SUBACK | holds | C29 C72 | `C29_suback`, `C29_effective`, `C72_acks_in_order` |  |
| [MQTT-3.8.4-2] | with the same packet id | holds | C29 | `C29_suback`, `C29_effective` |  |
| [MQTT-3.8.4-3] | a subscription with the same filter is replaced | **violated** | C22 | `C22_resubscribe_fails` |  |
| [MQTT-3.8.4-4] | several filters are as several requests | holds | C124 | `C124_subscribe`, `C124_unsubscribe` |  |
| [MQTT-3.8.4-5] | one return code for each filter | holds | C29 | `C29_suback`, `C29_effective` |  |
| [MQTT-3.8.4-6] | messages arrive with at most the granted QoS | **violated** | C40 | `C40_qos_fails`, `C40_ignored_fails` |  |
| [MQTT-3.9.3-1] | return codes are in the order of the filters | holds | C29 C124 | `C29_suback`, `C29_effective`, `C124_subscribe`, `C124_unsubscribe` |  |
| [MQTT-3.9.3-2] | no other return codes are used | holds | C04 | `C04_wire_format` |  |
| [MQTT-3.10.1-1] | UNSUBSCRIBE flags are checked | **violated** | C106 | `C106_never_closed_fails`, `C106_violation_fails` | rejected (C10), without closing |
| [MQTT-3.10.3-1] | filters are UTF-8 | holds | C10 | `C10_only_well_formed`, `C10_wrong_flags`, `C10_no_payload` |  |
| [MQTT-3.10.3-2] | at least one filter | **violated** | C106 | `C106_never_closed_fails`, `C106_violation_fails` | rejected (C10), without closing |
| [MQTT-3.10.4-1] | the subscription with the same filter is removed | **violated** | C23 | `C23_unsubscribe_fails` | one of the repeated ones |
| [MQTT-3.10.4-2] | no new messages after UNSUBSCRIBE | **violated** | C23 | `C23_unsubscribe_fails` | after a repeated subscription |
| [MQTT-3.10.4-4] | UNSUBSCRIBE is answered by UNSUBACK | holds | C30 C72 | `C30_unsuback`, `C30_effective`, `C72_acks_in_order` |  |
| [MQTT-3.10.4-5] | also if there was nothing to remove | holds | C27 C30 | `C27_unknown_filter`, `C27_unknown_filter_standard`, `C27_nothing_to_disconnect`, `C30_unsuback`, `C30_effective` |  |
| [MQTT-3.10.4-6] | several filters are as several requests | holds | C124 | `C124_subscribe`, `C124_unsubscribe` |  |
| [MQTT-3.12.4-1] | PINGREQ is answered by PINGRESP | holds | C31 | `C31_ping`, `C31_ping_history` | on a connection with a session |
| [MQTT-3.14.1-1] | DISCONNECT flags are checked | **violated** | C109 | `C109_flags_fails` |  |
| [MQTT-3.14.4-3] | DISCONNECT discards the will | holds | C113 | `C113_will_partial` | half of C113 |
| [MQTT-4.1.0-1] | session state is kept as long as the connection | holds | C73 C103 | `C73_message_reaches_subscribers`, `C103_only_while_subscribed` |  |
| [MQTT-4.3.1-1] | QoS 0: sent with QoS 0 and DUP 0 | **violated** | C95 | `C95_flags_fails` |  |
| [MQTT-4.3.2-2] | QoS 1: accepted messages are acknowledged | **violated** | C39 | `C39_acks_fails`, `C39_never_fails` |  |
| [MQTT-4.3.3-2] | QoS 2: accepted messages are acknowledged, duplicates recognised | **violated** | C39 C97 | `C39_acks_fails`, `C39_never_fails`, `C97_exactly_once_fails` |  |
| [MQTT-4.4.0-1] | unacknowledged messages are sent again after reconnecting | **violated** | C38 | `C38_persistent_fails`, `C38_never_fails` |  |
| [MQTT-4.5.0-1] | a message goes to all clients with matching subscriptions | holds | C73 | `C73_message_reaches_subscribers` | clients that are connected |
| [MQTT-4.6.0-6] | messages of a topic stay in order | holds | C49 C100 | `C49_publisher_order`, `C100_common_order`, `C100_no_reversal` |  |
| [MQTT-4.7.1-1] | wildcards only in filters | **violated** | C28 | `C28_wildcard_topic_fails`, `C28_wildcard_topic_twice_fails` |  |
| [MQTT-4.7.1-2] | '#' only as the last level, alone | **violated** | C99 | `C99_never_fails`, `C99_filter_fails`, `C99_topic_fails` |  |
| [MQTT-4.7.1-3] | '+' only alone in its level | **violated** | C99 | `C99_never_fails`, `C99_filter_fails`, `C99_topic_fails` |  |
| [MQTT-4.7.2-1] | wildcards do not match topics that begin with $ | **violated** | C21 | `C21_dollar_fails`, `C21_dollar_plus_fails` |  |
| [MQTT-4.7.3-1] | filters and topic names are not empty | **violated** | C99 | `C99_never_fails`, `C99_filter_fails`, `C99_topic_fails` |  |
| [MQTT-4.7.3-2] | no null characters in them | **violated** | C99 | `C99_never_fails`, `C99_filter_fails`, `C99_topic_fails` |  |
| [MQTT-4.7.3-4] | no normalisation | holds | C125 | `C125_matches_itself`, `C125_deliveries`, `C125_received` |  |
| [MQTT-4.8.0-1] | a protocol violation closes the connection | **violated** | C106 | `C106_never_closed_fails`, `C106_violation_fails` |  |
