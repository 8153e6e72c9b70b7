1.5.3-1	ill-formed UTF-8 is not accepted; the connection is closed	violated	C10 C106	never decoded as a packet, but the connection of an accepted client stays open
1.5.3-2	a string with U+0000 closes the connection	violated	C99	null characters are accepted in filters and topics
1.5.3-3	U+FEFF is a character like others	holds	C07	strings are decoded as sent
2.2.2-1	reserved flags of sent packets have their prescribed values	holds	C04	
2.2.2-2	invalid flags close the connection	violated	C109 C106	not checked for CONNECT, PINGREQ, DISCONNECT; rejected for all others, without closing
2.3.1-1	packet ids are not zero	violated	C110	
2.3.1-4	a message to a client gets a packet id not in use	violated	C96	the publisher's id is passed on
2.3.1-5	a QoS 0 PUBLISH has no packet id	holds	C04 C05	
2.3.1-6	acknowledgements carry the id of the message	violated	C39	there are no acknowledgements
2.3.1-7	SUBACK and UNSUBACK carry the id of the request	holds	C29 C30	
3.1.0-1	the first packet of a client is CONNECT	holds	C46	nothing happens before
3.1.0-2	a second CONNECT ends the connection	violated	C42	ignored
3.1.2-1	a wrong protocol name is not served	violated	C98	
3.1.2-2	an unsupported protocol level is answered by CONNACK 1	violated	C98	
3.1.2-3	the reserved CONNECT flag is checked	violated	C98	
3.1.2-4	without clean session the stored session is resumed	violated	C38	
3.1.2-5	messages for absent clients with a session are stored	violated	C38	
3.1.2-6	with clean session the previous session is discarded	violated	C142	subscriptions of a connection lost without DISCONNECT stay in force
3.1.2-8	the will is published when the connection is lost	violated	C113	
3.1.2-9	will topic and will message are read from the payload	violated	C09	
3.1.2-10	after DISCONNECT the will is not published	holds	C113	half of C113: no message that nobody published
3.1.2-18	user name flag off: no user name in the payload	holds	C07	
3.1.2-19	user name flag on: user name in the payload	holds	C07	without a will; see C09
3.1.2-20	password flag off: no password in the payload	holds	C07	
3.1.2-21	password flag on: password in the payload	holds	C07	if the password is text; see C123
3.1.2-22	no password without user name	violated	C111	
3.1.2-24	keep-alive is enforced	violated	C65	the threshold is right (C63), nobody calls it
3.1.3-1	order of the fields in the payload	violated	C09	only with a will; see C07
3.1.3-2	the client id identifies the session	holds	C36	
3.1.3-3	the client id comes first	holds	C07	
3.1.3-4	the client id is UTF-8	holds	C10	
3.1.3-5	client ids of 1 to 23 letters and digits are allowed	holds	C34	any client id is
3.1.3-6	a client without id gets a unique one	holds	C112	half of C112
3.1.3-8	no client id and no clean session: refused	violated	C112	
3.1.3-11	the user name is UTF-8	holds	C10	
3.1.3.5	the password is binary data	violated	C123	
3.1.4-1	a malformed CONNECT closes the connection without CONNACK	holds	C105 C71	for what the decoder rejects; see C98
3.1.4-2	a new connection with the same client id closes the old one	violated	C37	
3.1.4-4	a good CONNECT is acknowledged by CONNACK 0	holds	C34 C71	
3.1.4-5	nothing a refused client sends is processed	violated	C35	
3.2.0-1	CONNACK is the first packet sent	holds	C71	
3.2.2-1	clean session: session present is 0	holds	C34	it always is
3.2.2-2	session present tells whether there was a session	violated	C38	
3.2.2-4	refusal: session present is 0	holds	C33	
3.2.2-5	refusal: the connection is closed	holds	C108	
3.3.1-2	QoS 0: DUP is 0	violated	C95	if the publisher sets it
3.3.1-3	DUP is not passed on	violated	C95	
3.3.1-4	QoS 3 closes the connection	violated	C11 C109	the read task panics
3.3.1-5	retained messages are stored	violated	C41	
3.3.1-6	new subscribers get retained messages	violated	C41	
3.3.1-8	RETAIN is 1 for retained messages	violated	C41	
3.3.1-9	RETAIN is 0 for existing subscriptions	violated	C95	
3.3.1-12	messages without RETAIN are not stored	holds	C50	nothing is
3.3.2-1	the topic name is UTF-8 and comes first	holds	C07 C10	
3.3.2-2	no wildcards in topic names	violated	C28	
3.3.2-3	a message sent matches a filter of the client	holds	C103	for topic names without wildcards
3.3.4-1	QoS 1 and 2 messages are acknowledged	violated	C39	
3.3.5-1	QoS does not exceed the one granted	violated	C40	
3.6.1-1	PUBREL flags are checked	violated	C106	a PUBREL with other flags is rejected (C10), without closing
3.8.1-1	SUBSCRIBE flags are checked	violated	C106	rejected (C10), without closing
3.8.3-1	filters are UTF-8	holds	C10	
3.8.3-2	wildcards are supported	holds	C19	except that '#' does not match the parent level (C20)
3.8.3-3	at least one filter	violated	C106	rejected (C10), without closing
3.8.3-4	a requested QoS above 2 closes the connection	violated	C106	rejected (C10), without closing
3.8.4-1	SUBSCRIBE is answered by SUBACK	holds	C29 C72	
3.8.4-2	with the same packet id	holds	C29	
3.8.4-3	a subscription with the same filter is replaced	violated	C22	
3.8.4-4	several filters are as several requests	holds	C124	
3.8.4-5	one return code for each filter	holds	C29	
3.8.4-6	messages arrive with at most the granted QoS	violated	C40	
3.9.3-1	return codes are in the order of the filters	holds	C29 C124	
3.9.3-2	no other return codes are used	holds	C04	
3.10.1-1	UNSUBSCRIBE flags are checked	violated	C106	rejected (C10), without closing
3.10.3-1	filters are UTF-8	holds	C10	
3.10.3-2	at least one filter	violated	C106	rejected (C10), without closing
3.10.4-1	the subscription with the same filter is removed	violated	C23	one of the repeated ones
3.10.4-2	no new messages after UNSUBSCRIBE	violated	C23	after a repeated subscription
3.10.4-4	UNSUBSCRIBE is answered by UNSUBACK	holds	C30 C72	
3.10.4-5	also if there was nothing to remove	holds	C27 C30	
3.10.4-6	several filters are as several requests	holds	C124	
3.12.4-1	PINGREQ is answered by PINGRESP	holds	C31	on a connection with a session
3.14.1-1	DISCONNECT flags are checked	violated	C109	
3.14.4-3	DISCONNECT discards the will	holds	C113	half of C113
4.1.0-1	session state is kept as long as the connection	holds	C73 C103	
4.3.1-1	QoS 0: sent with QoS 0 and DUP 0	violated	C95	
4.3.2-2	QoS 1: accepted messages are acknowledged	violated	C39	
4.3.3-2	QoS 2: accepted messages are acknowledged, duplicates recognised	violated	C39 C97	
4.4.0-1	unacknowledged messages are sent again after reconnecting	violated	C38	
4.5.0-1	a message goes to all clients with matching subscriptions	holds	C73	clients that are connected
4.6.0-6	messages of a topic stay in order	holds	C49 C100	
4.7.1-1	wildcards only in filters	violated	C28	
4.7.1-2	'#' only as the last level, alone	violated	C99	
4.7.1-3	'+' only alone in its level	violated	C99	
4.7.2-1	wildcards do not match topics that begin with $	violated	C21	
4.7.3-1	filters and topic names are not empty	violated	C99	
4.7.3-2	no null characters in them	violated	C99	
4.7.3-4	no normalisation	holds	C125	
4.8.0-1	a protocol violation closes the connection	violated	C106	
