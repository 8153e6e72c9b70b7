# Formal model of ratelmq/ratelmq in Lean 4

Source under study: `/repo` (Rust, read as text, never built). Model and proofs: `/verif/lean`.

## 1. Layout

| Directory | Contents |
|---|---|
| `lean/Verif/Model/*` | executable model of the code, function by function; every definition cites file and lines in `/repo` |
| `lean/Verif/Spec/*` | small, separate specifications (MQTT 3.1.1 wire layout, topic matching, sequential broker, password file) that do not use the model's helpers |
| `lean/Verif/Proofs/*` | lemmas |
| `lean/Verif/Props/*` | the property theorems, one block per property `Cnn`, each with non-vacuity examples |
| `lean/Verif/Tests/*` | the repository's own 39 tests, run on the model by `#guard` (tests of the transcription, not proofs) |

Naming: `Cnn_…` proves property Cnn in full. `Cnn_…_partial` proves a restricted form (the restriction is in the
docstring and in MANIFEST.json). `Cnn_…_fails` proves, with a concrete witness or for a whole family, that the code
as written violates the stated property. A violated property has status `partial` in the manifest.

`CONFORMANCE.md` lists the numbered normative statements of MQTT 3.1.1 that concern the modelled code, each with the properties that
establish or refute it (generated by `tools/conformance.py` from `tools/conformance.tsv`; a table for the reader, nothing is proved by it).

## 2. What is modelled, and how

* **Bytes and buffers** (`mqtt_bytes_stream.rs`). `BytesMut` is `(off, cap, data)`; `advance`/`split_to` shrink the
  capacity, `reserve` reclaims or grows. What the `bytes` crate leaves open or changed between releases (growth
  amount, whether a full advance resets the view, when data is moved to the front) is a parameter `Alloc`; theorems hold for every `Alloc`.
* **Sockets.** Input: a list of segments (any fragmentation) and an ending (EOF, I/O error, silence). Output: a script of
  outcomes of `write` (accept k bytes / error; script exhausted = blocked for ever).
* **Outcomes.** `Res` = ok / err kind / panic / hang (spins for ever) / pending (parked for ever). Panics and
  non-termination are explicit values.
* **Codec** (`packet_decoder.rs`, `packet_encoder.rs`). Written once, generically over a byte source / sink, instantiated at
  the buffered stream and at the plain byte list. `Profile.overflowChecks` selects debug (panic) or release (wrap) u64 subtraction.
* **Subscriptions** (`subscriptions_repository.rs`): the trie as a nested inductive type, association lists for `HashMap`.
* **Sessions, messaging service, handler** (`session/*`, `messaging_service.rs`, `client_packet_handler.rs`): state machine
  `handle : Broker → ClientEvent → (Broker × list of sends) or panic`.
* **Listener and whole system** (`listener.rs`, `application.rs`): a transition system with any number of connections, read
  tasks, bounded queues (32), the handler, write tasks and ctrl-c; a schedule is an arbitrary list of task steps.
* **Two tasks** (`client_packet_handler.rs`, `messaging_service.rs`): the same system with the messaging service as a task of its own. The
  handler's code is a program of requests, clock readings and sends; sending a request, executing it and taking the reply are separate steps
  that interleave with everything else.
* **Waiting for the packet handler** (`application.rs`, tokio's `mpsc`): the system with the semaphore of the client-event channel, so that
  free places go to the read task that has waited longest.
* **Clients that react** (`listener.rs`): the system in which the arrival of bytes, the end of a connection and each answer of a socket to a
  write are steps of the execution, and a write task may be in the middle of a packet.
* **Brokers that run for ever**: both of these together (`Model/Live`): clients that react, and the waiting list.
* **Public types the broker does not use** (`MqttBytesStream`, `session_service.rs`): transcribed separately (`Model/CombinedStream`,
  `Model/SessionService`).
* **Process** (`main.rs`, `application.rs`, the accept loops of `listener.rs`): around the system, the listeners that accept connections, the
  main task with its shutdown sequence, the end of the messaging task, and the number `W` of worker threads: a task runs only if fewer than
  `W` read tasks spin. A schedule is an arbitrary list of process steps.
  `Model/Files` adds a limit `F` on open sockets: an attempt to accept fails, and is repeated later, while `F` sockets are open.
* **Start-up** (`application.rs`, `ClientPacketHandler::new`, `FileIdentityManager::new`, `MqttListener::bind`): from the settings and the
  password file, through the loop that binds the addresses one after the other while listeners already bound accept connections, to the
  process above. Before all is bound the main task does not handle SIGINT. What reading a file gives is a parameter.
* **Settings** (`settings/mod.rs`, `main.rs`): the configuration file as a table, merged with the variables of the environment and of `.env`,
  each under the path its name stands for, and read into `Settings`. The order in which a hash map yields the variables is a parameter.
  `Model/Start`: from the value of `--config` and a file system to the settings, with the crate's search for the file.
* **Log** (`env_logger`; the macros in `listener.rs`, `client_packet_handler.rs`, `messaging_service.rs`, `application.rs`): the records made in
  each step of the system, with level, module and message (`Model/Logging`); derived `Debug` written out; the text in the default format.
  `Model/Journal`: the records of the process, from the start-up to the end of the main task, and of failed accepts.
  `Model/RustLog`: the text of `RUST_LOG` parsed into directives, and the records they let through.
  `Model/Tracing`: the decoder again, with the TRACE records `get_string` makes; they are kept apart from those of `Model/Logging`.
* **Version** (`build.rs`, `config/build_info.rs`, the beginning of `main.rs`): from what git prints to the text `--version` shows (`Model/Build`).
* **Authentication** (`authentication.rs`) and **ratelmq-passwd** (`ratelmq-passwd/src/main.rs`): text-level models;
  Argon2 hashing/verification and Unicode case folding are parameters.
* **Keep-alive** (`session_entity.rs`): seconds as integers; the `f32` multiplication is modelled by exact rationals
  with an explicit 24-bit-significand argument.

## 3. Plan per property

| Property | Model | Proof plan |
|---|---|---|
| C01 C02 C03 | codec over byte lists | induction on base-128 digits; case analysis of at most four bytes; C03 refuted for every n ≥ 2^21 |
| C04 C05 C06 C07 C08 | codec; `Spec/Wire` | unfold encoder against the spec layout; decoder inverse lemmas composed through a small Hoare-style calculus; induction over packet lists |
| C09 | codec | refuted by witness; partial = C07 without will |
| C10 C11 C12 | codec | inversion of the decoder on `ok` / `panic`; C11, C12 refuted by witnesses, partial forms with exact side conditions |
| C13 C14 C15 | read stream | simulation between the buffered reader and the list reader, per primitive then per decoder; the loop body of `get_bytes` iterated for the hang |
| C90 | read stream | exact capacity accounting while the first 4096 bytes are consumed, as an instance of the decoder calculus of C07; for the partial form, packets that never reach `get_bytes` cannot spin |
| C91 C92 | read stream | the buffered reader is the same as a tape of bytes with a number of bytes left in the window (`Proofs/Alike`, `Proofs/Window`: a bisimulation lifted through the whole decoder); on the tape the decoder's run is decided by the list of fields (`Spec/Fields`, `Proofs/WindowReads`) |
| C93 | sequential broker, process | two brokers that agree on everything but a group of clients (`Proofs/Isolation`) stay so; with C82 this carries over to every schedule |
| C94 | subscription tree | the set of paths of the tree as a function of the history (`Proofs/Memory`), n connections that unsubscribe and leave |
| C10 (exact) | decoder | `Proofs/Language`: the converse of `readPacket_took`; `C10_language` is an equivalence |
| C95 C96 C97 C99 | sequential broker, system | a scene with a subscriber and two publishers (`Spec/Conformance`, `Proofs/Scene`) realised with C77; what holds from C50 and from "the messages sent to a connection are a subsequence of those published" |
| C100 C101 | system; `Spec/Order` | C48's sequence of events, with the publishes numbered per connection; the sequence only grows |
| C102 C103 C104 | system; `Spec/View` | a simulation between the sequential broker and a machine that knows one client only (`Proofs/View`), C48 around it; C103 and C104 by induction on that machine |
| C105–C108 | system; `Spec/Close` | the invariant of C48 on closed write tasks, and what it means that no task can move (`Proofs/Ends`, `Proofs/Told`); C107 refuted by a packet that cannot be received; C79 for "in the end"; C106 refuted for every accepted client |
| C109–C114 | decoder, handler, system; `Spec/Rules` | C109 from `decodeBody`'s case split and C10; violations of C110–C112 as executions built with C77, for all packets that break the rule; C113 from C50; C114 by erasing events from the sequential broker |
| C115–C119 | start-up (`Model/Boot`); `Spec/Boot` | simulation between the starting process and the process with all its listeners (`Proofs/Boot`); whether ctrl-c was pressed makes no difference until the handler stops, so every execution fits between two binds; C118 from C48 and C57, C119 from it and C59, C61 |
| C120 | subscription tree, system; `Spec/Load` | the number of nodes the walk holds, and of copies, counted (`Proofs/Load`); the flood as an execution built with C77 and one more event |
| C121 | decoder on the buffered stream, system; `Spec/Sizes` | every text and payload goes through `get_bytes`, which gives at most a buffer full (`Proofs/Sizes`); invariant of the system; C94's paths for the depth |
| C122 | decoder | a bound on what is waited for, composed along the decoder (`Proofs/Patience`); violations for all inconsistent packets of a kind |
| C98 | decoder, system | C10 (exact) and C77 |
| C16 C17 C18 C70 | write stream | simulation between the buffered writer and list append; capacity invariant for termination; C18, C70 refuted by witness; for C18's part an invariant of the buffer under full writes (`Proofs/FullWrites`); for C70's parts a calculus of writers that put a part of their bytes (`Proofs/WriteFits`) |
| C19–C28 C69 | trie; `Spec/Topic` | refinement to a list of (client, filter) entries, by induction on histories and on levels; refuted ones by witness |
| C29–C42 C58 C68 | handler | decision-logic theorems for every state; refuted ones by witness histories |
| C43 C44 C45 | system | invariant: the channel of a stored session is never closed; witnesses for the crash paths |
| C46 C47 | listener | inversion of the read loop |
| C48–C55 | system | refinement of the concurrent system to the sequential broker through history invariants; induction on schedules |
| C123 | decoder on any source; `Spec/Clauses` | a CONNECT laid out with a byte password is read up to the password, where the text check fails (`getString_bad`) |
| C124 | packet handler | two executions related by induction on the list of filters, for every state |
| C125 | subscription tree, system | `Matches` without wildcards is equality; counting from C19, executions from C50 |
| C126 C127 | `ratelmq-passwd` with its file (`Passwd.main`) | moments of the run; start-up and access from C116, C118 |
| C150 C151 | `Model/Desk`: runs of `ratelmq-passwd` call by call on one file | invariant of a run on its own (the file is the old text or a beginning of the new one); induction over runs that do not overlap; violated |
| C152 | system; `Spec/Dialogue` | induction over the events handled: what each adds for a connection is messages and the answer, or an answer and the end; with C71, C108 and C139 |
| C153 | `Model/Host`: password tool and broker on one machine | the broker's steps and the tool's are independent but for the start; C118; violated |
| C129–C131 | settings; `Spec/Settings` | what a path leads to after setting another one, by cases on how the paths relate; induction on the variables; for C131 only the two sections matter, and another order of the hash map makes up for the missing variable |
| C132 (and exact forms of C10, C11) | codec; `Spec/Panics` | inversion and construction for each error (`Refuses`), the loops by induction with what is left modulo 2^64; finality by a relation between runs on the bytes and on their continuation (`Agree`) |
| C133 | system; `Spec/Rounds` | progress measure: while not everything is handled, two rounds raise the number of events handled plus packets sent by one, because a full channel is drained by the write task in each round; what has been handled and sent only grows (`Later`) |
| C134 | `Model/Waiting` (system with the semaphore of the client-event channel) | invariant: permits, granted permits and queued events add up to 32, and nobody waits while there are permits; the place of a task in the waiting list plus the number of events taken is constant; simulation in both directions with the system |
| C128 | text models | the regular expression's leftmost match located in the file; C59–C61 turned into equivalences |
| C56 C57 C59–C62 | text models | induction on lines; C59–C61 refuted in general, partial under explicit conditions on names |
| C63 C64 C65 | keep-alive | integer arithmetic; C65 refuted on the system model |
| C71–C76 | system; `Spec/Protocol` | from the refinement of C48–C55: facts about the outputs of the sequential broker carried over to each connection; C76 refuted by witness |
| C77 C135 | system; `Spec/Orders` | construction of a schedule by induction on the order of events: every packet is written as soon as it is queued, a request to go away is left in its queue (`Proofs/Orders`); conversely the part of what was queued from such a request on never exceeds the capacity (invariant) |
| C136 | `Model/Open` (system in which arrivals, ends of connections and answers of sockets are steps); `Spec/Open` | simulation: the state filled up with what is still to come is the state of the system with everything given at the start, for every future at once (`Proofs/Open`); reading and writing do not depend on what comes after (`Proofs/Later`); converse with an empty future |
| C137 C138 | `Model/Open` | C48, C101 and C104 at two moments of one execution, through C136; a packet that has not arrived has not been dealt with |
| C139 | `Spec/Wire`, encoder, system | first byte, length field and fields are each determined by the bytes (`Proofs/Unambiguous`); C04 |
| C140 | `Model/CombinedStream`, `Spec/Library` | each function commutes with putting two halves together (`Proofs/Library`) |
| C141 | `Model/SessionService`, `Spec/Library` | induction over the changes |
| C142 | messaging, handler | C32 after the CONNECT; a subscription held comes from a SUBSCRIBE (induction over the operations); violated |
| C143 | `Model/Live`, `Spec/Endless` | for each task: what it waits for happens (a write ends, the handler sends, takes the next event; a permit comes, a packet is read), by following the execution to the next turn; C134 and C136 carry over; bytes for sockets that take 4096 at a time by the invariant of C18 |
| C144 | `Model/Live` | C143 up to a moment when the message is handled and the handler at rest, then C138, then C143 for the write |
| C145 | `Model/Open`, `Model/Live` | the machine `View` with filters that no longer change, C136 for reacting clients, C143 for the endless case; once-sent messages have one event |
| C146 | `Model/Live` | the answers among what `View` puts out are those to the client's own packets; C143 for the endless case |
| C147 | `Model/Open` | nobody is reached on a connection before its CONNECT; what a client holds is what its packets make (simulation by `View`); violated by an earlier DISCONNECT that comes late |
| C148 | `Model/System`, fair schedules | C105 and C106 for any number of connections; a client is reached on one connection only (pigeonhole); violated |
| C149 | `Model/Files`: the process with room for `F` sockets; `Spec/Files` | an attempt to accept that fails is a void step, so every such run is a run of the process (C82–C86) and comes to rest; at rest a socket that is open is in use (`Proofs/Ends`); violated |
| C78–C81 | system; `Spec/Fair` | well-founded measure on states for C78; analysis of the states in which no fair step changes anything for C79; C80 from these, C48 and a bound on the number of writes; the bound of C81 from the finiteness of the possible event lists, its figures from what each decoded packet takes on the wire (`Proofs/Traffic`); that the square is reached by k subscribers and k messages (`Props/Reached`); C80 and the good case of C84 for the whole process in `Props/Behaved` |
| C82–C87 | process; `Spec/Process` | invariant over process schedules: the system part is an execution of the system that touches only accepted connections, and the phase of the main task tells what has ended; C84, C86 by a well-founded measure and the analysis of rest states as for C79; refuted ones by extending arbitrary states |
| C154 | system, process; `Spec/Lasting` | invariant: what a read task has handed over is what `received` gives through its buffer, and it spins only if `received` does (`Proofs/SysTook`); with C92 and C79, C86 the packets handled of legal clients of any length are computed; violated |
| C88 C89 | two tasks | forward simulation to the system with a prophecy for the clock reading; backward direction by draining the requests of each event; C89 from the invariant that the messaging task outlives the handler |
| C155 C156 | `Model/Start`; `Spec/Start`: what the Dockerfile puts into the image | calculation of the name with the extension replaced; C129, C116 for what the settings and the start come to; violated |
| C157 C158 C159 C160 C161 | `Model/Logging`; `Spec/Logging`: events without secrets, refusals, a parser of records | handler records of an execution = records of its event log; noninterference by induction over pairs of event logs that are logged alike; injectivity of the text by cutting at the first line that is not indented; C157, C160, C161 violated |
| C162 C163 | `Model/Journal`; `Spec/Journal`: what the main task says, the addresses listened on | what has been said is a function of the state of the process, by induction over steps of the start; the log of the process, but for records about the process, is that of an execution of the system (so C157, C158, C160, C161 hold for the process, too); a step that changes nothing logs nothing, with C83; C163 violated, with C149 |
| C164 | process; start-up | simulation between processes with different listeners |
| C165 | system; `Spec/Versions`, `Spec/Alike` | C77 and C168: both sets of clients have the same possible orders, if as many packets fit into the windows; violated for longer connections by C90 |
| C166 | system and process with limited sockets; `Spec/Mute` | the first read decides; what holds a sender of a connection without CONNECT; mute connections stay as they are; violated by them |
| C167 | system; `Spec/Slow` | while a small packet is written to a socket that takes one byte at a time at most eight bytes leave the buffer (`Proofs/Slow`); a schedule from `servedAll`; violated; what holds: induction over the packets written with `Roomy` (`Proofs/FullWrites`) |
| C168 C169 | system; `Spec/Alike` | simulation between a byte source and one that yields at least as much (`Proofs/More`), then C77 and C135: the possible orders depend on the packets received only; the pieces matter where C91 says so |
| C170 | log; `Spec/LogSize` | the records of a history of events counted against the sequential broker (`Proofs/LogSize`); a family of executions with `k + n` connections and `n * k` warnings |
| C171 | system; `Spec/Users` | C50 and C47: who asked for a message and who gets it; a family of executions in which somebody else gets it |
| C172 | build script and version (`Model/Build`) | what becomes of what git prints, outright |
| C173 | log (`Model/Logging`, `Model/Journal`) | every `{:?}` text can be told from what follows it; events and refusals read off the records; induction over the events handled |
| C174 | sequential broker, then system (`Model/System`) | a broker with other names is kept in step with the first (`Renaming.Of`) by every event; `C77_any_length_iff`, `C135_any_length_iff` carry it to executions |
| C175 | process (`Model/Process`, `Model/Files`, `Model/Journal`) | setting all times to zero commutes with every step and changes no record |
| C176 | events (`Spec/Races`), system | independent neighbours commute: an event changes the session and the subscription counts of its own client only, copies depend on matching subscriptions only; lifted by C77 and C135 |
| C177 | events, process | C93, and messages that no subscription matches can be left out (`Proofs/Communities`) |
| C178 | events, process | simulation: the second broker has the same sessions and at least the entries (`Proofs/Asking`) |
| C179 | events, process | simulation: the two clients hold the same entries and send the same copies (`Proofs/Twins`) |
| C180 | events, process | bisimulation for one direction; for the other, events that tell two states apart (`Proofs/Past`) |
| C181 C182 | events, process | the sequential broker uses the topic only and keeps nothing of a message (`Proofs/Opaque`) |
| C183 | text of `RUST_LOG` | parsing undoes writing (round trip); in a list sorted by length the last that fits is the longest (`Proofs/RustLog`) |
| C184 | process | refinement to the sequential broker, whose outputs are the things there is a reason for (`Proofs/Reasons`) |
| C185 | decoder | relation between the decoder with and without records (`Tells` in `Proofs/Tracing`), for any source that gives as many bytes as asked for |
| C66 C67 | messaging service | induction on operation histories; C67 refuted |

## 4. Trusted base

* **Lean's kernel** (Lean 4.33.0). No `sorry`, no own axioms, no `native_decide`, no `bv_decide`. Mathlib is not imported.
* **Axioms.** The property theorems depend on at most `propext`, `Classical.choice` and `Quot.sound`. The exact set for each theorem
  is listed in `AXIOMS.md`, generated by `tools/axioms.py` from `#print axioms`.
* **The reading of `/repo`.** The model was transcribed by hand from the text. Each definition cites the lines it stands for; section 5
  lists where it is simplified. No tool derives the model from the Rust text. `Tests/Repo.lean` runs all 39 tests of `/repo` on the
  model during the build, the decoder tests also under other fragmentations, allocators and build profiles; all give the answers the
  repository asserts.
* **External crates**, as far as the model says something about them:
  * `bytes::BytesMut`: `capacity`, `advance`, `split_to`, `reserve` as in `Model/BytesMut.lean`. Growth amounts and the effect of a full
    `advance` are parameters.
  * tokio: channels are FIFO, bounded by 32, closed when the receiver is dropped; a task is only stopped by its own code; a panic ends the
    task and drops what it owns. `read_buf` and `write_buf` as in `Model/ReadStream.lean` and `Model/WriteStream.lean`.
  * `std::str`: `from_utf8`, `split`, `lines`, `split_once`. `lines` is a parameter where releases differ.
  * `regex`: leftmost match of `<escaped name>:.*\n`, expansion of `$` in replacements, case-insensitive comparison as a parameter.
  * `argon2`: a parameter; only C59 assumes that a hash just made verifies.
  * `config` 0.10, `serde`, `dotenv`: as documented, as far as `Model/Settings.lean` says: variables with the prefix `ratelmq_` in any case,
    `__` replaced by a dot, names in lower case, merged over the file as texts, a path making the tables on its way; missing keys and values
    of another shape are errors, unknown keys are ignored; `std::env::vars` panics on what is not Unicode; `.env` does not replace
    variables. `File::with_name(name).format(Toml)` takes the file of that name or else the one with the extension `toml` (`Model/Start.lean`).
  * `log`, `env_logger` 0.8: a record is written if its level is at most that of the directive of `RUST_LOG` with the longest name that its module
    begins with, the last of several; directives are separated by commas, `level`, `name` or `name=level`, perhaps with a regular expression after a
    slash, whose meaning is a parameter, as are the white characters and whether parts are trimmed; `[time LEVEL module] message`, lines after the
    first indented by four spaces. `{:?}` of texts escapes control characters, quotation marks and backslashes; which other characters it
    escapes, and how it shows errors, addresses and senders, are parameters (`Texts`).
  * `chrono`: instants are integers (nanoseconds).
* **The specifications** in `lean/Verif/Spec` are what the property theorems mean; they are short and meant to be read.

## 5. What is not modelled, and simplifications

Not modelled: the parsing of the command line (`clap`; the value of `--config` is a parameter), what panics print, parsing TOML and `.env` (the result is a parameter, as is the content of the password
file), subscripts `[n]` in names of variables, TCP accept errors other than the limit on open files (`Model/Files`), TLS (there is none), memory exhaustion and timers.
The TRACE records of `mqtt_bytes_stream.rs` are modelled for each read of a packet (`Model/Tracing`, C185) but are not part of the log of an execution
(`Model/Logging`); what is proved about that log is about the records of the other modules.
`keepalive_checker.rs` is commented out as a whole. The record "Started Messaging Manager" is taken to be made when its task is spawned; the
hash of the commit has at least ten characters in the model of the log (main.rs slices it; see C172 for other builds).

Simplifications, all meant to leave the observable behaviour as it is:

* All connections exist from the start; one not yet accepted is one whose read task has not run. (In the process model the tasks of a
  connection run only once it is accepted.)
* Worker threads: any task can run on any worker thread that is not spinning. In tokio a task woken by a spinning one may sit in that
  worker's LIFO slot; a spinning read task wakes nobody after it has begun to spin. The main task runs on the main thread (`block_on`) and is
  always able to run; the arrival of the signal does not need a worker thread. Dropping the runtime waits for the worker threads.
* A read task's `read_packet` is one step. If the bytes do not suffice and the peer stays silent, the step leaves the connection
  unchanged. Bytes arrive independently of the schedule: a read step that "has not yet" got its bytes is the same as a schedule that
  takes this step later. That nothing is lost by this is proved (C136): the model in which bytes arrive during the execution, and may depend
  on what clients have received, has the same executions. In that model a waiting read is repeated from the start of the packet, and pieces
  that have arrived are read one by one; pieces that are read together are one arrival, at the time of the later one.
* A write task takes an event and writes the packet in one step. The write script is finite: when it is used up the socket takes nothing
  any more, and the task is parked for ever. Sockets that take writes for ever are covered, for any finite run, by long scripts; sockets
  that take their time, by C136; and executions that never end, with sockets that answer again and again, by C143.
* In the system, a request to the messaging service and its answer are one step, and the handler makes all requests of an event before its
  first send. That this changes nothing is proved (C88): the model with two tasks has the same executions.
* In the system a free place in the channel to the packet handler goes to any read task. In tokio it goes to the task that has waited
  longest; this is modelled separately (`Model/Waiting`, after tokio's documentation of `mpsc` and of its semaphore), and makes no
  difference to the states that can be reached (C134).
* The channel of the messaging service never holds more than one request, so its bound is not modelled.
* In `Passwd.main`, `std::fs::write` is truncating the file and writing all of it; both succeed. `Model/Desk` has the single calls, which may
  read or write less, fail, and interleave with those of other runs (C126, C150, C151).
* In `Model/Host` the broker reads the password file in one step when it starts, and no second broker is started while one runs.
* `HashMap` is an association list. The iteration order is used in one place only, `remove_client`, where it does not matter.
* `u64` subtraction in the decoder is exact, with the wrap-around or panic of the two build profiles. `usize` and `u64` do not
  overflow elsewhere for inputs below 2^63 bytes (proved for the length field in C02).
* `f32` arithmetic in the keep-alive check is exact for all 16-bit values (C63_f32_exact).

## 6. Findings

Behaviour of the code that violates a stated property; each has a `_fails` theorem.

| Property | Finding |
|---|---|
| C03 | four-byte remaining lengths are rejected: the limit is 2 MiB instead of 256 MiB |
| C09 | a CONNECT with a will is misread: the will topic is taken as user name or password, or left in the stream |
| C11 | PUBLISH with QoS 3, reserved packet types, and (with overflow checks) inconsistent lengths panic the read task |
| C12 | the announced remaining length is not enforced for CONNECT, acknowledgements, PINGREQ and DISCONNECT |
| C14 C15 | `get_bytes` spins for ever exactly when more is asked for than the current capacity and at least that much arrives; so most PUBLISHes above 4096 bytes hang their connection's task |
| C90 | the buffer is not reclaimed inside `get_bytes`: after 4096 bytes on a connection, the first topic or payload that lies across the end of the buffer hangs its task, however small it is; 228 copies of the repository's own 18-byte test message suffice |
| C154 | so a client that stays is served only up to such a packet: after CONNECT and 226 messages of 18 bytes nothing it sends is handled any more, in no execution |
| C18 | `finish_packet` writes once: a partial write leaves the rest in the buffer until the next packet |
| C91 | with a `bytes` release that resets emptied views, the same bytes are received or hang the reader depending on the TCP segments |
| C94 | the tree of subscriptions never shrinks, and UNSUBSCRIBE from filters nobody holds makes it grow: memory is lost for ever to clients that come and go |
| C120 | one PUBLISH to the topic name `+/+/…/+` by a subscriber of that filter makes the packet handler send 2ⁿ copies for n levels; a client that sends 4 KB stops the broker for everybody |
| C122 | in builds without overflow checks, a SUBSCRIBE or UNSUBSCRIBE that is announced too short swallows everything that follows as filters of itself |
| C95 | DUP and RETAIN of the publisher are passed on to subscribers |
| C96 | packet ids of publishers are passed on: two publishers using the same id collide at the subscriber |
| C97 | a QoS 2 message sent again is delivered again |
| C98 | any protocol name, level and reserved flags are accepted |
| C99 | empty filters and topics, null characters and misplaced wildcards are accepted |
| C106 | after malformed input the connection of an accepted client stays open, unread |
| C107 | a packet behind a DISCONNECT that does not fit the read buffer keeps the read task of the connection busy for ever, although the client closed its side |
| C109 | reserved flag bits of CONNECT, PINGREQ and DISCONNECT are not checked |
| C110 | packet id 0 is accepted in SUBSCRIBE, UNSUBSCRIBE and PUBLISH |
| C111 | a password without user name is accepted (and ignored) |
| C112 | an empty client id is accepted also without clean session |
| C113 | wills are never published; a CONNECT with a will ends its connection |
| C115 | clients are served before the start has succeeded; a failed start can hang; with no address the broker is "ready" |
| C92 | with the other releases: exact condition for the hang; 16-byte messages are served for ever, 18-byte messages hang |
| C70 | after a failed write the packet is cut: the next one starts in the middle |
| C20 C21 | `a/#` does not match `a`; wildcards match `$` topics |
| C22 C23 C24 | subscriptions are counted: a repeated one is delivered twice and survives one UNSUBSCRIBE or disconnect |
| C28 | a PUBLISH to a topic name with wildcards is relayed, to subscribers of that very filter |
| C35 | a refused client's packets are still processed: it can publish, and silence another client for good; whether it was refused makes no difference to the others |
| C37 | takeover leaves the old connection open and able to act |
| C38 | sessions are never resumed; "session present" is always false |
| C39 C40 C41 | no acknowledgements, no QoS downgrade, no retained messages |
| C42 | a second CONNECT is ignored |
| C43 | a user name without password, or any answered packet after a refusal, crashes the whole broker |
| C52 C55 | one subscriber that stops reading stalls everybody, and the shutdown; it takes 34 packets due to it, not fewer |
| C54 | a lost connection is never noticed |
| C58 | authentication is optional for the client |
| C123 | a CONNECT with a password that is not UTF-8 is treated as malformed; the standard allows any bytes |
| C126 | `ratelmq-passwd` truncates the file before writing it; an interruption loses all users, a broker started meanwhile refuses them |
| C127 | `ratelmq-passwd` panics if there is no file yet |
| C150 | of two passwords set at the same time one can be lost, or the file garbled so that the broker does not start |
| C151 | when writing fails (no space left), `ratelmq-passwd` has already emptied the file |
| C153 | a user deleted from the password file while the broker runs can still log in until the broker is started anew |
| C130 | the addresses to listen on cannot be set by a variable: if RATELMQ_MQTT__LISTENERS_TCP is set the broker does not start |
| C131 | any variable of the environment that is not Unicode keeps the broker from starting |
| C155 | the image of the Dockerfile does not come up as the README says: its configuration names a password file that is not in the image |
| C156 | if the file given with `--config` is missing, one with the extension `toml` in its place is used silently |
| C157 | with RUST_LOG=TRACE all passwords and contents of messages are written to the log |
| C160 | user names of refused logins and client ids of stray PINGREQs are written to the log with their control characters (escape sequences of terminals, line feeds) |
| C161 | short of TRACE the log does not say as which user a client has logged in |
| C163 | when no more sockets can be had, failing accepts are retried at once for ever, each with a record of level ERROR: the log fills the disk |
| C165 | a client of MQTT 3.1 can lose its connection where the same client speaking MQTT 3.1.1 does not: its CONNECT is two bytes longer (C90) |
| C166 | there is no time limit for the CONNECT: a connection on which nothing (or the beginning of a packet) is sent stays open for ever, and as many of them as the process may have sockets keep everybody else out |
| C167 | `finish_packet` and `write_buffer_if_too_small` write once and do not look at how much was taken: with a socket that takes a little at a time the write buffer of the connection grows without bound (and what is left in it is sent only with later packets) |
| C168 | with releases of the library that reset an emptied view, whether a client is served can depend on how TCP cuts its bytes (C91) |
| C170 | clients that subscribe after their DISCONNECT keep subscriptions without a session; each message that meets them makes one WARN record per subscription, without bound |
| C171 | whoever connects with the client id of a logged-in user, without any credentials, gets the messages this user has subscribed to |
| C172 | outside of a git repository there is no build; built in a repository without a commit, the broker panics at every start |
| C59 C60 C61 C119 | `ratelmq-passwd` matches names anywhere in a line and case-insensitively; a missing final line feed merges entries |
| C65 | keep-alive is never enforced |
| C67 | the Publish operation of the messaging service does nothing |
| C76 | packets after a DISCONNECT on the same connection are still processed |
| C84 | one connection whose read task spins keeps the process from ending; ctrl-c during the start kills the process |
| C85 | after a crash of the packet handler the process lives on: it accepts connections and serves nobody |
| C86 | as many connections as there are worker threads, unauthenticated, each with one large PUBLISH, stop the whole broker for good, ctrl-c included |
| C87 | at shutdown queued packets and events are dropped |
| C142 | the clean-session flag is ignored: subscriptions of a connection that broke without DISCONNECT come back into force |
| C147 | a client that disconnects and reconnects under the same id can have its new session removed by its own earlier DISCONNECT: messages are lost, its next PINGREQ closes the connection and the one after that crashes the broker |
| C148 | every client that goes away without DISCONNECT leaves a socket, a task and a channel behind for ever; clients without client id, one each time |
| C149 | once as many clients as the process may have sockets have gone away without DISCONNECT, nobody is accepted any more |

## 7. Mutation tests

`seeded/LOG.jsonl` lists wrong programs the theorems were tested against: each line gives the definition of the model that was edited, the
edit, the claim it breaks, the lemmas and property theorems that then failed, and what was tightened. Tests run in a copy outside this directory:
failing proofs are replaced by `sorry` until the project builds. `failed_lemmas` and `failed_theorems_directly` are those whose own proof no
longer goes through; `failed_theorems` are all property theorems that then depend on a `sorry`. Caveat: a theorem in the last list lost
its proof, which does not by itself show that it is false of the edited model; the converse is what is tested: a theorem *not* in
the list is still proved of the edited model, so if its English claim is false there, it says too little. `properties_expected` was written down
before the run.

Lines `auto0` … are from a campaign of 677 generated mutants: operators (comparisons, connectives, constants, dropped fields, dropped appends,
negated conditions, swapped branches, …) applied at random places of the files in `Model/`. 50 did not type-check (not listed), 610 made the build
fail (`failed_theorems_directly` is where it first failed: a lemma or a property), 17 survived. The survivors were all reviewed: each is equivalent
to the original or changes an unreachable branch, as the line says.
