# A Lean 4 model of dtzxporter/hydra — design

## Method

Every module of the code is transcribed to small total Lean functions (`init`, `step`, pure functions); every definition of the
model cites file and lines in `/repo`. A panic is an explicit error value (or the end of the process), `&mut` becomes a returned value, a
loop becomes a fold or structural recursion, and an external crate is either modelled at its contract (bincode's byte format, channels =
FIFO lists, `DashMap` = function or association list with per-key atomicity) or is a parameter (HMAC, hash function, user callbacks,
type conversion of messages, start routines).

Each model file `Verif/X.lean` has a companion `Verif/XProps.lean` with a small specification and the property theorems, named
`Cnn_...`, and beside them an `example` that shows that a concrete case meets the hypotheses. Helper lemmas are in `*Lemmas.lean`, `*Eff.lean`,
`*Inv.lean`, `WorldAtoms.lean` and `WorldFields.lean`.

Where the code violates its own documented claim, the negation is proved with a concrete witness (`Cnn_..._violated`) and what does hold is
proved as `Cnn_..._partial`; the full English statement stays in `properties.jsonl`. `MANIFEST.json` (generated by `tools/gen_manifest.py`) lists the
theorems of every property; the note of a partial one says what is missing. `seeded/LOG.jsonl` records the wrong programs the theorems were tested with.

## The layers of the model

1. **Data** — `Types`, `Codec`, `Hello`, `HashRing`, `Misc`, `Tables`: pure functions; theorems for all inputs.
2. **One mailbox** — `Mailbox`: `items` and channel of one process, the three receive loops, split at the only await point.
3. **One node** — `World`: all static tables of the runtime; `step` is one API call (or one frame that arrives, one task that is dropped, one
   report of a connection supervisor), atomic; `run` folds any list of operations of any processes, so a theorem about `run` is about every history. An
   operation of a process that is not running does nothing. `WorldAtoms` shows that every step is a sequence of *atoms* (single table
   updates), of which invariants are proved one by one.
4. **Programs of processes** — `Client`, `Server`, `Registry`, `App`: an `async fn` is a `Prog` (operations, receives, a result); `Exec` runs
   it with any operations of others between any two of its steps, and with timeouts at any moment.
5. **Two nodes** — `TwoNode`: two `World`s and the frames in flight between them.
6. **Races inside one function** — `Race`, `Timer`, `Restart`, `Heartbeat`, `Handshake`, `Locks`: micro-step models at the granularity of single table accesses,
   under every schedule.
7. **Sequential machines with an oracle** — `Supervisor` (start routines are an oracle, times are given from outside), `Websocket` (callbacks
   are a parameter, every awaited result is an input).

## Plan per property

| id | model | proof |
|----|-------|-------|
| C01–C06 | `Codec`: byte-level bincode (fixint, LE) encoder and decoder of all frames over `List UInt8` | round-trip lemma per field type, prefix lemma, induction on frames and on chunks; C06 is violated: the decoder is given `src[4..]`, unbounded |
| C07, C08 | `Hello`: the MAC is a parameter | equality reasoning, injectivity hypothesis on the MAC where rejection is claimed; the concatenation ambiguity is a witness |
| C09–C11, C85, C86 | `Ident`: (de)serialisation of pids, references, nodes, destinations over the node tables of `World` | invariant of the tables, round trip between two reachable worlds |
| C12–C17 | `HashRing`: sorted list with the real binary search; the hash function is a parameter | binary search correctness, sortedness invariant over histories, refinement to a map |
| C18–C22, C81 | `Mailbox` | induction over the mailbox; a schedule is a list of arrivals |
| C23–C40, C94 | `World` | invariants by induction over histories, effect lemmas per operation (`DropEff`, `WorldEff`, `MonitorInv`) |
| C35, C36, C42–C44, C89 | `Race` in addition | invariants over all interleavings; witnesses |
| C57, C94 | `AliasRace` in addition: senders to the alias of a monitor, the death, the owner that gives up | invariants over all interleavings; witnesses |
| C41 | `Timer` | invariant over all schedules |
| C45–C48, C52, C82, C91, C95–C99 | node tables of `World` (`NodeProps`, `NodeDownEff`, `NodeDownProps`, `NodeStopProps`, `NodeDemonProps`, `NodeLifeProps`, `TightProps`) | invariants over histories (`NodeInv`, `StateInv`, `Queueing`), effect lemmas |
| C49–C51, C92, C93 | `TwoNode*` | inductive invariants over all interleavings of both nodes and of the arrivals |
| C53 | `Heartbeat` | induction on rounds, arbitrary delays |
| C54, C79, C80 | `Misc` | direct, induction; C80 with a bound on the stack |
| C55 | `World` (`SendProps`) | as C38 |
| C56, C57, C60, C71 | `Client` | inversion of executions, invariants of the caller's mailbox, provenance of messages |
| C58, C59 | `Server` | induction over the rounds of the loop, with arbitrary callbacks |
| C61–C70, C84, C100 | `Supervisor` | list lemmas and invariants over histories |
| C72–C75, C88, C102 | `Registry` | invariant of the server loop under interference (`RegistryInv`, `RegistryTerm`) |
| C76, C77, C90 | `Websocket` | invariants over all input sequences |
| C78, C87 | `App` | induction over the rounds of the loop; when `run` returns (`AppReturnProps`): its last message is the exit of the main process, which is dead if it sent no exit signal itself (`truthful_run`); witnesses of returns too early |
| C83 | `Restart` | invariant over schedules, witness |
| C101 | `Handshake`: the registrations of one node on two nodes and all connection attempts between them | inductive invariant over all interleavings of attempts, accepts and failures; the simultaneous connect is a witness |
| C103 | `Locks`: the script of locks (shards of `DashMap`s) of every function, threads that execute scripts | all scripts respect one order of the tables; of the waiting threads the one that waits for the last lock has a holder that can go on |
| C104 | `Info` | what `info` reads, compared with the effect of the death of the process (`drop_eff`) and with the history of deliveries |
| C105, C107 | `NodeText`: strings as lists of characters, the address parser a parameter; the builder as a fold over the calls | case analysis and induction over the calls; a separate relation `Denotes` says what a string means |
| C106 | `LocalSend`: `send` with a partial serialisation | induction over the destinations |
| C108 | `WsServer`: the callbacks of `WebsocketServer` as programs on top of `Server` and `World` | before the server ends itself normally it kills the accepting process (`Guarded`); otherwise its reason is not `normal` (C109) and the link kills it |
| C109 | `World` | invariant over all operations |
| C110 | `ConnRace`: the registration of one node, its watchers and connections, at the granularity of locked accesses | inductive invariant: every watcher is in exactly one place; a queue invariant for the frames |
| C111 | `Client` programs, unfinished executions (`At`) in `World` | inductive invariant over the history since the monitor: the entry is held, and the target is watched and alive or its Down is in the channel; a poll then returns |
| C112 | `SupProc`: the supervisor as a `Server` in `World`; its functions as routines (`Sk`) that become programs; start routines are arbitrary programs | refinement: every execution of the process is, message by message, a step of the state machine of `Supervisor` (for some oracle), and its log is what was performed in the node (`Performs`; `PerformsD` with the retries that the process sends to itself) |
| C113, C114 | the same, with C71 for each shutdown | invariant of the log (`Tracked`, `Sound`: what is started is stopped or told of), the split of the history at a logged effect (`performs_split`), the signals in the stretch of a shutdown (`signals`, `Says`); the lying child is a witness run through `Sim` |
| C115 | as C111, for monitors kept in the tables of a remote node | as C111, with the registered monitor of C47 (`RWatch`) in place of the local one: it stays registered until the loss, which puts the Down into the channel of the waiting process |
| C116 | the loop of C58 and the call of C56 as programs in one history of the node | every reply with the reference of the call is located in the loop (induction over the rounds): before it the server received a request with this reference, which by provenance is the request of the call; order: the first reply lies before the end of the first call, the rest of the loop from there serves the second; exactly once from C117; sequential from C58 |
| C117 | mailbox, send and frames of the World model | counting invariant: received + in the mailbox ≤ delivered, for the messages that read as the set; conversion in place never makes new ones (coherence of downcasts); one delivery per single send |
| C118 | mailbox, send and the server loop of the World model | invariant: an item that reads as x is in the mailbox (for a waiting receive: in the channel) and nothing that reads as y is before it, from its arrival until a receive returns it; a scan that accepts x then returns something that is not y; for servers by induction over the rounds of the loop; with C116 for cast-then-call |
| C119 | `TwoNode`, `TwoNodeHistory`, the server loop and the call of the World model; each node has its own serializer (`Sers`), what the other node reads is related by a renaming of pids and references (`Speaks`), which `C119_names` derives from the modelled `Serialize`/`Deserialize` | the histories of the two nodes are extracted from the schedule; a reply on the left comes from a send on the right, that from a round of the server loop, that from a frame, that from a send on the left, the one in the call; counting of frames on the line for at most once |
| C120 | as C119, with `GenServer::cast` to the pid of a server of the other node | the frame of the cast is on the line before that of the call (the line only grows at its end), hence it arrives first (`arrives_first`), and lands in the mailbox before any request of the call is sent on the right; then C118_server |
| C121 | as C116 for the calls of the server's node and C119 for those of the other node, in one schedule | the place of the answer of each call in the history of the server's node (`call_located`, `call_located_from`); the rest of the loop serves the second call |
| C122 | `SupClient`: the six functions as programs (a `callProg` and a `match` with a panic); the supervisor as in C112 | supervisor callbacks never answer calls themselves (`sup_returns`), so C116 gives the record of the call; the refinement of C112 (`Chain`) gives the decision; the prefix of the loop up to the answer is itself a life (`call_located`) |
| C123 | as C122, with `Genuine` start routines | the state at the decision (C122) and what the supervisor performed until then (C112, C114) |
| C124 | as C116 | the round of the loop that answers the call (`call_inside`), with the execution of `handle_call` in it; replies are sent only by the loop, so two handlers cannot overlap (`handled_apart`) |
| C125 | `Registry` as in C72, the client functions as programs, any number of uses | the moment is the operation on the shared table, of the caller itself or in the `handle_call` of its request (C124); inserts come only from the registry, so between its lookup and its insert the key stays free (`guards_*`, `start_moments`); the moments differ since the handlers do not overlap (`handles_apart`) |
| C126 | as C125 | an insert needs a free key in the whole loop (`insert_free`), so a key keeps its process until it is freed (`key_kept`) |
| C127 | the honesty of a program is a statement about all its cut-off executions (`HonestFrom`), with rules for return, operation, wait and sequence | a reply can be traced back to a request, the request to the one call that made its reference (`callMon_unique`), and to the process that its destination means (C38); gives `NoForgery` and `Unforged` of C116/C124/C125. `Honest` excludes replies by a process other than the receiver of the request (`GenServer::reply` is public) |
| C128 | the place of a message in the mailbox (`Queued`: at most k messages before it), over the stored items followed by the channel | every operation leaves the place or takes the message; a receive that accepts everything brings it one place nearer (`recv_closer`); induction over the history and over the rounds of the server loop. Callbacks may receive, but not the requests of the server (`LeavesRequests`) |
| C129 | the part of a history in which a process sends no replies (`Replyless`), in particular the part in which it runs `GenServer::call` | C56 (an Ok is a reply that was sent during the call) and C127 (only the server called sends it): the reply would be an operation of the busy process |
| C130 | the functions of C122 used by any family of processes (`SUse`), the supervisor process of C112 | the functions and the supervisor are honest programs (rules of C127); so every question has its record in the log of the supervisor, by C116, and the log is a life of the state machine, by C112 |
| C131 | two connected nodes (C119) whose processes are honest (C127); what comes from third nodes or came before the connection is constrained by `HonestSide.calls/replies` only | every request with a reference of the other node is traced over the line to the call that made it (`request_right`, `got_from_left`), every reply over the line to the server it was sent to; gives `Honest` for both nodes and `UnforgedAcross`/`NoGuess` of C119–C121; those give places in the log (`MixCall`, `C131_linearizable`) |
| C132 | `Console`: `handle_call` of the console as a function of the state of its node; lists of pids are written on one node and read on the other (`Ident`) | membership by the bounds on ids (`reach_bounded`, `regs_lt`); the way of the pids there and back by induction over the list with `deserPid_spec` and C09_stable; violated for pids of other nodes: `C132_foreign_violated` |
| C133 | `Reconnect`: `Handshake` with the frames that wait, those given to the sender of a connection and those taken by the receiver at the other end; any number of connections | invariants over all schedules: numbers of given and waiting frames increase, `got ++ line = given` for each connection, connections used in the order of acceptance; with `NoneLate` the frames got are from ever newer connections of the sender; violated otherwise: `C133_overtaken_violated` |
| C134 | HandledProps, HandledAcrossProps | Invariant `Backlog`: what was put into the mailbox = what was handled ++ what waits, kept by every atom of the world, by every receive that spares the requests and by the polls of the loop (`backlog_loop`, induction over the rounds). `C134_state` folds the callbacks over the arrivals; `C134_across` composes with C92. |
| C135 | TwoNodeCausalProps | Invariant `Flows` over the runs of two nodes: what was sent = what has left the line ++ what is on it; what has been put into mailboxes is a sublist of what has left the line, equal to it at every process that exists. `C135_causal` for two messages; `C135_handled` composes with C118 for servers. |
| C136 | TwoNodeLastProps | Uses the invariant `Mon` of C49: while the monitored process exists, nothing about its death is on the line; `lands_first` (induction on the schedule) follows a message on the line with no such news before it until it arrives. `C136_link`: `no_news` (no linkDown on the line while the process exists) and `line_order` (arrival in the order of the line). |
| C137 | NoticeProps, SupNoticeProps | `Notified a t` (watching the living `t`, or its exit message is in the mailbox, or `a` does not run) is kept by every operation that is not an unlink, a reset of the trap flag or a receive that takes the exit message: case analysis over the atoms (`watching_step`, `heard_step`) and over the scans of the mailbox (`select_has`, `remove_has`). `C137_run` by induction over the loop of `Application::run`; `C137_supervisor` with the rule for server loops, the effects of the callbacks, and assumptions on the start routines (`Links`: what they return is linked to the supervisor). |
| C138 | `AppConsole`: the process of `run` with the feature `console`; a start of the console server is any program | induction over the rounds of the loop (`Keeps` says which messages start another console server); `Knows` of C137 is carried through the rounds, from every start to the next; a refused restart is a witness |
| C139 | `Auth`: any number of nodes and handshakes, bytes in any pieces, cookies that change, a network that delivers what it likes (`Legal`: challenges that were seen, computed with known keys, or no keyed hash at all) | what a handshake reads determines its end (`step_up`); all hellos on the network were sent by nodes (`sent_by`); an honest stream is followed byte by byte (`progress`); reflection and replay are witnesses |
| C140 | the server loop with arbitrary callbacks (`Server`) in `World` | `Notified` (C137) is an invariant of the loop (`loop_rule`) as long as the callbacks leave the parent alone; the number of items before the exit message never grows and falls with every round (`before`, `within_take`); killing from C29 |
| C141 | the accepting process and the process of every connection as a timed transition system (`WsAccept`): TLS handshake, request, callback, answer, timers; what tokio-tungstenite does is an assumption | an invariant over histories that relates each phase to the events since the arrival; a projection lemma (`C141_on_its_own`); induction along the history for the converse |
| C142 | the supervisor process (`supLife`) as a server of C140; trees as a relation between processes of one history (`Hangs`, `Under`) | every routine of the supervisor shuts down only its children, and its parent is never one of them (`Avoids`, by induction over the routines), so its callbacks leave the parent to the loop (`LeavesParent`) and C140 applies; workers: links persist and a death that is not normal kills them; children of a terminated supervisor: C113; the tree by induction from the root |
| C143 | the supervisor process and the server loop (`loop_calls`: where in the history a callback runs), `Boots`, and `Race.Names` for the single steps | names are a bijection (C25) and the dead stay dead, so nobody who was told of a death by the node finds the name taken; C114 for the siblings; in `Race.Names` an invariant of all schedules (`Owned`: a name resolves to a process that is registered under it, or whose drop is about to remove it) |
| C144 | the supervisor process (`supLife`) | C84 (the state machine lists whom it started, did not shut down and was not told of) carried over to the process: what was shut down is dead (C113, C71), and who was told of by the node is gone (C143) |
| C145 | the supervisor process (`supLife`) and the links of its children | every listed process was returned by its start routine and is linked to the supervisor, so when it goes its exit message is delivered (C143, C08); the state machine clears or replaces the process when it handles that message. Violated by a one_for_all supervisor whose restart of an earlier sibling fails: the exited child keeps its old process; witness run |

Nothing in the list is inexpressible; where real time, sockets or memory matter, only the logical part is modelled and the hypotheses say so.

## What is modelled, and what is not

| file of the code | modelled in | not modelled |
|---|---|---|
| frame/*.rs, codec | `Codec` | allocation failure for huge length fields; the u32 overflow of the length of a frame over 4 GiB is a hypothesis |
| frame/hello.rs, node_registry.rs:515-550 | `Hello` | SHA-256 itself (the MAC is a parameter), timing of the comparison |
| hash_ring.rs | `HashRing` | the hash function (a parameter) |
| process_receiver.rs, process_item.rs, message.rs | `Mailbox` | panics of user filters |
| process.rs, process_registry.rs, process_kernel.rs | `World`, `Race`, `Timer` | task-local borrow checks, tracing, `Process::list`, `Process::flags` bits other than trap_exit |
| link.rs, monitor.rs, alias.rs | `World`, `Race`, `AliasRace` | iteration order of `BTreeMap`s (insertion order here) |
| node.rs, node_registry.rs, node_kernel.rs | `World`, `Ident`, `NodeText` (conversions from strings) | the cookie is only in `Hello` |
| node_local.rs, node_remote.rs | `World` (operations `accept`, `workers`, `supDown`, `frame`), `Heartbeat`, `TwoNode`, `Restart`, `Handshake`, `Reconnect`, `ConnRace` | sockets (the handshake is in `Auth`); a connection that fails is an operation that may happen at any time |
| gen_server.rs, from.rs, call_error.rs | `Client`, `Server` | `cast_after` (a timer, see `Timer`) |
| supervisor.rs, child_spec.rs, restart.rs, shutdown.rs | `Supervisor` (the decisions), `SupProc` (the process: start routines and shutdowns as programs in `World`), `SupClient` (the functions that ask a supervisor), `Client` (`shutdownProg`), `NodeText` (builder) | the functions for a supervisor of another node (`start_child` then panics: a `Local` is not serializable, C106); a start routine that panics or never returns (the executions of C112–C114 are those in which it returned); the clock is a function of the number of handled messages |
| registry.rs | `Registry`, `Tables` | the ranges of the integer keys |
| application.rs, application_config.rs | `App`, `AppConsole` (feature `console`) | tracing, panic hook, signal handling by the OS |
| task.rs | `Misc` (`await_many`) | cancellation of tasks by tokio |
| websocket_server.rs, websocket_server_config.rs | `WsServer`, `WsAccept` | binding sockets, what TLS and tokio-tungstenite do inside (their results are events) |
| local.rs | `LocalSend` | – |
| websocket_handler.rs, websocket_command.rs | `Websocket` | tungstenite (its results are inputs) |
| console.rs | `Console` | the figures of `RuntimeInfo` (`ConnectSuccess`, tick) |
| hydra-macros, runtime_info.rs, catch_unwind.rs | – | no logic of interest beyond what is used above |

Assumptions that appear as hypotheses or as part of a model:

* Steps of `World` are atomic. The races inside one function that matter are modelled separately (`Race`, `AliasRace`, `ConnRace`,
  `Timer`, `Restart`).
* `TwoNode` assumes reliable in-order delivery while the connection lasts (TCP and the codec), that both sides start from reachable states with nothing
  left of an earlier connection (`Begins`), and that the connection stays up (`Legal`).
* C07 rejection, C139 agreement: the MAC is injective (an ideal MAC), and an attacker sends only challenges that it has seen, can compute with keys it knows, or that are no keyed hash.
* C72, C75, C88: nobody else writes the table of the registry, and its start routine returns a new linked process (`RegEnv`, `Starts`); the
  theorems `C72_..._violated` show that this is needed.
* C113, C114, C123: a start routine that reports a process of this node reports one that exists or existed, and not the supervisor itself (`Genuine`); `Honest` (C113): the child never calls
  `Process::exit` on its supervisor.
* C98: connection supervisors report on remote nodes only (node_remote.rs:280-318).

## Findings

The properties marked `_violated` are discrepancies between the documentation and the code. Among them: the builder `heartbeat_timeout` sets the
handshake timeout (C54); `HashRing::clear` keeps the overrides (C16); `unlink` works in one direction (C30); `unalias` does not look at the owner (C36); the
exit reason of a process is overwritten until it is dropped (C40); `cancel_timer` and `read_timer` race with the timer (C41); a process that ends before it
is registered stays registered for ever (C42); monitors, links (C43, C89) and names (C44) race with the death of a process; frames are lost after a
reconnect (C46); forgotten or stopped nodes are not reported (C48); remote `demonitor` is never sent to the right node (C50); late replies
(C57); supervisors: intensity, temporary children, `terminate_child`, `AllSignificant`, dead pids in the child list, panic on `ignore` (C63, C65, C67–C70); a second registry
with the same name destroys the table of the first (C72), a registry without start routine panics (C74); websocket `terminate` may be invoked never or twice (C77);
`Application::test` accepts killed applications (C78); `await_many` does not return the first error (C79); comparing a reference with a
destination overflows the stack (C80); `Node::stop` leaves accepted connections open (C82), and the old node clears the tables of a restarted one (C83); a child
of a one_for_all supervisor can stay `restarting` for good (C100); after a failed restart of an earlier sibling such a supervisor shows the dead child whose exit caused the restart as running (C145); two nodes that connect to each other at the same time can kill both connections (C101);
`message_queue_len` leaves out messages that a selective receive has passed over (C104); nodes whose name contains an `@` cannot be written as a string (C105); sending a `Local` to
a list of local processes panics (C106); a permanent child can be significant (C107); a websocket server whose accepting process has died stays alive and
accepts nothing (C108); a message can come through the alias of a monitor after the Down (C94), and a reply after a call to another node has timed out (C57); a child
that calls `Process::exit` on its supervisor is forgotten although it lives, and survives the supervisor (C113); a server that calls itself panics if it uses its pid and
waits until the timeout if it uses its name (C129); the console dies if it is asked about a process of another node (C132); a message can overtake an earlier one if a
node is late to accept a connection that the other one has already replaced (C133); `Application::run` returns although the main process goes on, if its own process
dies (it cannot read a message, or a console server cannot be started again: C87, C138) or if the main process sends it an exit signal (C87). The handshake does not authenticate the peer: the challenge of a hello is fixed, and the accepter sends its own before it has
checked the other one, so a peer that knows no cookie is accepted if it sends back what it gets, or what it got from another node earlier (C139).

C103 holds only because `process_exists_lock` does not keep its guard (which is what C43 and C89 complain about): kept, a `Monitor` frame would lock
`PROCESS_REGISTRY` before `NODE_REGISTRATIONS`, and `node_send_frame` locks them the other way round.

## Trusted base

* Lean 4.33.0's kernel. Axioms: at most `propext`, `Classical.choice` and `Quot.sound`; `AXIOMS.md` lists them for every property theorem
  (generated by `tools/axioms.lean.txt`). No axioms of our own, no `native_decide`, no `bv_decide`. Mathlib is not imported. `decide` and `decide +kernel` occur in
  concrete examples and witnesses only (`Sim` computes the executions).
* The faithfulness of the transcription, checked by reading only.
* The assumed behaviour of tokio, flume, DashMap, bincode, hmac/sha2, serde, pingora-timeout and tungstenite, as stated in the model files.
