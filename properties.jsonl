{"id": "C01", "title": "Frame encode/decode round trip", "statement": "Encoding any frame (Hello, Ping, Pong, Send, Monitor, MonitorDown, MonitorUpdate, Link, LinkDown, Exit) with the wire codec and decoding the produced bytes yields that frame back and consumes exactly the bytes produced.", "quantifier": "all frames, of every variant, with strings, byte vectors, id lists and reasons of any length (body < 4 GiB)", "why_tests_cant": "the set of frames is infinite: lengths, ids and nested lists are unbounded", "anchors": ["hydra/src/frame/mod.rs: Codec::encode, Codec::decode", "hydra/src/frame/send.rs: Send", "hydra/src/exit_reason.rs: ExitReason"]}
{"id": "C02", "title": "Stream decoding does not depend on how TCP cuts the bytes", "statement": "If a peer writes any list of frames back to back, then however the byte stream is cut into reads, repeatedly decoding the receive buffer yields exactly that list of frames, in order, and leaves nothing in the buffer.", "quantifier": "all finite frame sequences and all ways of cutting their concatenated encoding into chunks (including empty and one-byte reads)", "why_tests_cant": "the number of chunkings is exponential in the stream length and streams are unbounded", "anchors": ["hydra/src/frame/mod.rs: Codec::decode"]}
{"id": "C03", "title": "An incomplete frame yields nothing and is not consumed", "statement": "Decoding a buffer that holds a proper prefix of one encoded frame returns \"need more data\", reports no error and leaves the buffer unchanged.", "quantifier": "all frames and all proper prefixes of their encodings", "why_tests_cant": "every cut point of every frame", "anchors": ["hydra/src/frame/mod.rs: Codec::decode"]}
{"id": "C04", "title": "Encoding appends and its length prefix is exact", "statement": "Encoding a frame into a non-empty write buffer leaves the bytes already there untouched, appends a 4-byte little-endian length followed by a body of exactly that many bytes.", "quantifier": "all buffers and frames (body < 4 GiB)", "why_tests_cant": "buffers and frames are unbounded", "anchors": ["hydra/src/frame/mod.rs: Codec::encode"]}
{"id": "C05", "title": "Decoding hostile bytes is total and makes progress", "statement": "On any byte buffer whatsoever decoding returns a frame, \"need more data\" or an error; when it returns a frame it removes at least four bytes and exactly 4 + the declared length, which are all present; otherwise the buffer is unchanged. A stream that contains a malformed record after complete frames yields these frames and ends there with an error, whatever arrives later; it ends with an error for no other reason.", "quantifier": "all byte strings", "why_tests_cant": "the input space is all byte strings", "anchors": ["hydra/src/frame/mod.rs: Codec::decode"]}
{"id": "C06", "title": "A frame body is decoded only from its own declared bytes", "statement": "The frame returned for one length-prefixed record depends only on the bytes of that record, never on bytes that follow it.", "quantifier": "all records and all following bytes", "why_tests_cant": "requires comparing every possible continuation of the buffer", "anchors": ["hydra/src/frame/mod.rs: Codec::decode (read_from_slice over src[4..] rather than src[4..4+length])"]}
{"id": "C07", "title": "Hello authentication accepts exactly the peers that share the cookie", "statement": "A Hello made with a cookie validates on a node holding the same cookie; with an injective MAC, a Hello whose cookie, name or broadcast address differs from the one that was signed does not validate.", "quantifier": "all names, addresses, cookies", "why_tests_cant": "all strings/cookies", "anchors": ["hydra/src/frame/hello.rs: Hello::new, Hello::validate"]}
{"id": "C08", "title": "Hello validation treats \"no cookie\" as one fixed shared secret", "statement": "A node without a cookie accepts a peer that has no cookie, and accepts a peer with a cookie exactly when that cookie is empty or made of at most 64 zero bytes (HMAC pads the fixed key); it does not accept anybody else.", "quantifier": "all hellos, cookies", "why_tests_cant": "all cookies", "anchors": ["hydra/src/frame/hello.rs: Hello::new, Hello::validate"]}
{"id": "C09", "title": "A Pid keeps its identity across nodes", "statement": "A Pid serialised on one node and deserialised on any node of the cluster denotes the same process; sent back to its owner it is the original local Pid again, and two different Pids never become equal.", "quantifier": "all pids, all sender/receiver nodes, all contents of the node tables", "why_tests_cant": "node tables are arbitrary histories", "anchors": ["hydra/src/pid.rs: Serialize/Deserialize", "hydra/src/node.rs: Serialize/Deserialize", "hydra/src/node_registry.rs: node_register, node_lookup_remote"]}
{"id": "C10", "title": "A Reference keeps its identity across nodes", "statement": "A Reference serialised on one node and deserialised on another denotes the same reference; sent back to its owner it is the original local Reference.", "quantifier": "all references, nodes, node tables", "why_tests_cant": "node tables are arbitrary histories", "anchors": ["hydra/src/reference.rs: Serialize/Deserialize"]}
{"id": "C11", "title": "A foreign Pid is never mistaken for a local one", "statement": "Deserialising a Pid whose owner is a different node (or is unavailable) never yields a Pid of the local node.", "quantifier": "all serialised pids and node states", "why_tests_cant": "all", "anchors": ["hydra/src/pid.rs: Deserialize"]}
{"id": "C12", "title": "HashRing lookup picks the clockwise successor", "statement": "After any history of adds, removes and set operations, finding a key returns the node with the smallest hash not below the hash of the key, or the node with the globally smallest hash when there is none, and returns nothing exactly when the ring holds no node.", "quantifier": "all operation histories, hash functions and keys", "why_tests_cant": "histories and keys are unbounded", "anchors": ["hydra/src/hash_ring.rs: HashRing::find_node"]}
{"id": "C13", "title": "HashRing changes disrupt only the affected keys", "statement": "Adding a node changes the owner of a key only to the new node; removing a node changes the owner only of keys that node owned.", "quantifier": "all rings, nodes and keys", "why_tests_cant": "all rings/keys", "anchors": ["hydra/src/hash_ring.rs: HashRing::add_node, remove_node, find_node"]}
{"id": "C14", "title": "HashRing overrides take precedence", "statement": "When an override for a key is present the lookup returns it whatever the ring contains; without an override for the key the overrides have no influence.", "quantifier": "all rings, override maps and keys", "why_tests_cant": "all", "anchors": ["hydra/src/hash_ring.rs: HashRing::find_node, add_override"]}
{"id": "C15", "title": "HashRing membership behaves like a map from hash to node", "statement": "After any history the ring holds each hash at most once in ascending order, and add/remove return exactly the previously stored node for that hash, as a map would.", "quantifier": "all histories", "why_tests_cant": "unbounded histories", "anchors": ["hydra/src/hash_ring.rs: HashRing::add_node, remove_node, nodes"]}
{"id": "C16", "title": "HashRing clear removes nodes and overrides", "statement": "After clearing the ring, no node and no override remains: every lookup returns nothing (documented).", "quantifier": "all rings and keys", "why_tests_cant": "all", "anchors": ["hydra/src/hash_ring.rs: HashRing::clear"]}
{"id": "C17", "title": "HashRing placement does not depend on insertion order", "statement": "Two rings that were given the same nodes in any order, with no two node keys colliding, answer every lookup identically; bulk add equals adding one by one.", "quantifier": "all permutations of all node lists", "why_tests_cant": "factorially many orders", "anchors": ["hydra/src/hash_ring.rs: HashRing::add_nodes, set_nodes"]}
{"id": "C18", "title": "Selective receive returns the earliest match and keeps the rest in order", "statement": "A select returns the first message, in arrival order, that the filter accepts; every other message stays in the mailbox in its original relative order and is seen by later receives.", "quantifier": "all mailboxes, filters and arrival schedules", "why_tests_cant": "unbounded mailboxes and arrival schedules", "anchors": ["hydra/src/process_receiver.rs: ProcessReceiver::select"]}
{"id": "C19", "title": "Plain receive is first-in first-out", "statement": "Successive receives return the messages in the order in which they arrived, none twice and none lost; messages of a foreign type are skipped and stay in the mailbox.", "quantifier": "all mailboxes and numbers of receives", "why_tests_cant": "unbounded", "anchors": ["hydra/src/process_receiver.rs: ProcessReceiver::receive"]}
{"id": "C20", "title": "Cancelling a receive loses no message", "statement": "If a pending select or receive is dropped at any await point (for example by a timeout), every message that had arrived is still available to later receives, in order.", "quantifier": "all mailboxes and all cancellation points", "why_tests_cant": "cancellation may strike at every await point", "anchors": ["hydra/src/process_receiver.rs: ProcessReceiver::select"]}
{"id": "C21", "title": "A strict receive rejects foreign messages", "statement": "With strict type checking a receive that meets a message of another type panics instead of delivering or dropping it; without it the receive never panics.", "quantifier": "all mailboxes", "why_tests_cant": "all", "anchors": ["hydra/src/process_receiver.rs: ProcessReceiver::strict_type_checking, receive, select"]}
{"id": "C22", "title": "Removing from the mailbox takes every queued match and nothing else", "statement": "Removing with a filter deletes from the mailbox exactly the messages already arrived which the filter accepts and keeps the others in order.", "quantifier": "all mailboxes and filters", "why_tests_cant": "all", "anchors": ["hydra/src/process_receiver.rs: ProcessReceiver::remove"]}
{"id": "C23", "title": "Process ids and references are never reused", "statement": "No two spawns (and no two references) in the life of a runtime are given the same id, whatever processes have died in between.", "quantifier": "all operation histories", "why_tests_cant": "unbounded histories", "anchors": ["hydra/src/process.rs: spawn_internal", "hydra/src/reference.rs: Reference::local"]}
{"id": "C24", "title": "Aliveness is monotone and agrees with exit", "statement": "A process is alive from spawn until it finishes or receives a terminating signal, and once not alive it is never alive again.", "quantifier": "all histories", "why_tests_cant": "unbounded histories", "anchors": ["hydra/src/process_registry.rs: process_alive", "hydra/src/process.rs: Drop for Process"]}
{"id": "C25", "title": "Name registry is a partial bijection", "statement": "At every moment a name maps to at most one process, a process holds at most one name, and the process named by whereis is registered under exactly that name.", "quantifier": "all histories of spawn, register, unregister, exit and death", "why_tests_cant": "unbounded histories", "anchors": ["hydra/src/process_registry.rs: process_register, process_unregister, process_name_lookup"]}
{"id": "C26", "title": "Registering succeeds exactly when permitted", "statement": "register(pid, name) succeeds if and only if the name already belongs to pid, or the name is free and pid is a live-in-registry local process without a name; on failure nothing changes.", "quantifier": "all states, pids and names", "why_tests_cant": "all states", "anchors": ["hydra/src/process_registry.rs: process_register"]}
{"id": "C27", "title": "Direct exit signals follow the signal table", "statement": "Sending exit(pid, reason): Kill always terminates with reason kill; Normal/Ignore terminate only the sender itself, are delivered as a message to a trapping process and are otherwise ignored; any other reason terminates a non-trapping target or the sender itself, and becomes an Exit message for a trapping target.", "quantifier": "all states, senders, targets, reasons and flags", "why_tests_cant": "all states", "anchors": ["hydra/src/process_registry.rs: process_exit"]}
{"id": "C28", "title": "Kill cannot be trapped", "statement": "After exit(pid, Kill) the local process is no longer alive, in any state, and no Exit message is delivered instead.", "quantifier": "all states", "why_tests_cant": "all", "anchors": ["hydra/src/process_registry.rs: process_exit"]}
{"id": "C29", "title": "A dying process signals every linked process exactly once", "statement": "When a process dies, every process linked to it receives exactly one exit signal carrying its exit reason: trapping processes get one Exit message from it, non-trapping ones are terminated with that reason unless it is normal; unlinked processes are unaffected.", "quantifier": "all states and link graphs", "why_tests_cant": "all link graphs", "anchors": ["hydra/src/link.rs: link_process_down", "hydra/src/process_registry.rs: process_exit_signal_linked"]}
{"id": "C30", "title": "Unlink is bidirectional", "statement": "After unlink(pid) neither the death of the caller affects pid nor the death of pid affects the caller.", "quantifier": "all states", "why_tests_cant": "all states", "anchors": ["hydra/src/process.rs: Process::unlink", "hydra/src/link.rs: link_destroy"]}
{"id": "C31", "title": "Abnormal exits propagate through the whole link component and stop", "statement": "If no process traps exits and a process dies abnormally, processing all resulting deaths terminates, and exactly the processes reachable through links are dead, each with the same reason.", "quantifier": "all finite link graphs", "why_tests_cant": "unbounded graphs", "anchors": ["hydra/src/link.rs: link_process_down"]}
{"id": "C32", "title": "Every monitor yields exactly one Down", "statement": "Over any history, for each monitor on a local process that is never removed, the monitoring process is sent exactly one Down message for it once the monitored process dies, with the exit reason, and none before.", "quantifier": "all histories", "why_tests_cant": "unbounded histories", "anchors": ["hydra/src/monitor.rs: monitor_process_down, monitor_install"]}
{"id": "C33", "title": "After demonitor no Down for that reference is received", "statement": "Once demonitor(reference) returns, the caller never receives a Down message for that reference, even if the monitored process had already died.", "quantifier": "all histories", "why_tests_cant": "all histories", "anchors": ["hydra/src/process.rs: Process::demonitor"]}
{"id": "C34", "title": "Monitoring or linking a dead process reports immediately", "statement": "Monitoring a process that no longer exists delivers one Down with reason noproc at once; linking to one delivers one exit signal with reason noproc.", "quantifier": "all states", "why_tests_cant": "all states", "anchors": ["hydra/src/monitor.rs: monitor_install", "hydra/src/link.rs: link_install"]}
{"id": "C35", "title": "A one-shot alias admits at most one message under any interleaving", "statement": "Whatever number of senders race on a reply alias, at most one of their messages is delivered to the alias owner, and the alias is inactive afterwards.", "quantifier": "all numbers of senders and all interleavings", "why_tests_cant": "unbounded concurrent senders", "anchors": ["hydra/src/alias.rs: alias_retrieve"]}
{"id": "C36", "title": "After unalias nothing is delivered through the alias", "statement": "After unalias returned, a message sent to the alias is delivered to nobody; unalias only affects aliases of the calling process and returns whether one was removed.", "quantifier": "all states", "why_tests_cant": "all states", "anchors": ["hydra/src/process.rs: Process::unalias", "hydra/src/alias.rs: alias_destroy"]}
{"id": "C37", "title": "Nothing of a dead process stays behind", "statement": "After a process is dropped its registration, name, links, incoming monitors, its aliases and its outgoing monitors are gone from the runtime tables.", "quantifier": "all states", "why_tests_cant": "all states", "anchors": ["hydra/src/process.rs: Drop for Process", "hydra/src/monitor.rs: monitor_destroy_all"]}
{"id": "C38", "title": "Send delivers one copy to each addressed live process", "statement": "Sending to any list of destinations puts exactly one copy of the message in the mailbox of each existing local destination per occurrence in the list, touches no other mailbox, and hands at most one frame to each remote node, listing all its destinations.", "quantifier": "all destination lists and states", "why_tests_cant": "all lists", "anchors": ["hydra/src/process_kernel.rs: process_send", "hydra/src/dest.rs: Dests"]}
{"id": "C39", "title": "Sending to a dead or unknown destination has no effect", "statement": "A send to a pid, name or alias that does not exist leaves the whole runtime unchanged and does not fail.", "quantifier": "all states", "why_tests_cant": "all states", "anchors": ["hydra/src/process_kernel.rs: process_send"]}
{"id": "C40", "title": "The reported exit reason is the one of the first terminating signal", "statement": "The reason reported to links and monitors is the one of the first terminating event of the process.", "quantifier": "all histories", "why_tests_cant": "all orders of signals", "anchors": ["hydra/src/process_registry.rs: process_exit", "hydra/src/process.rs: Drop for Process"]}
{"id": "C41", "title": "Timers fire at most once and never after cancel", "statement": "A message scheduled with send_after is delivered at most once, not before its time, and never after cancel_timer returned; read_timer reports the remaining time and nothing once the timer has fired or was cancelled.", "quantifier": "all histories of timer operations and schedules", "why_tests_cant": "schedules", "anchors": ["hydra/src/process.rs: send_after, cancel_timer, read_timer", "hydra/src/process_registry.rs: process_register_timer"]}
{"id": "C42", "title": "A spawned process is fully registered before it can die", "statement": "For every schedule, after a spawned process has died no trace of it remains in the process table.", "quantifier": "all interleavings of spawner and spawned task", "why_tests_cant": "schedules", "anchors": ["hydra/src/process.rs: spawn_internal"]}
{"id": "C43", "title": "A monitor set up while its target dies still reports", "statement": "For every interleaving of a monitor installation with the death of its target, the monitoring process eventually is sent exactly one Down.", "quantifier": "all interleavings", "why_tests_cant": "schedules", "anchors": ["hydra/src/process_registry.rs: process_exists_lock", "hydra/src/monitor.rs: monitor_install"]}
{"id": "C44", "title": "Concurrent registrations never share a name", "statement": "For every interleaving of registrations, unregistrations and deaths, a name registered successfully by a live process keeps resolving to it until that process unregisters or dies.", "quantifier": "all interleavings", "why_tests_cant": "schedules", "anchors": ["hydra/src/process_registry.rs: process_register, process_unregister, process_name_remove"]}
{"id": "C45", "title": "Node ids identify nodes", "statement": "At every moment two known nodes have different ids, an id names at most one node, ids of forgotten nodes are never reused, and the id of the local node never changes.", "quantifier": "all histories of connects, accepts, disconnects, forgets", "why_tests_cant": "unbounded histories", "anchors": ["hydra/src/node_registry.rs: node_register, node_accept, node_lookup_remote, node_forget"]}
{"id": "C46", "title": "Frames for a node are handed over in order, none lost or duplicated", "statement": "Frames sent to a node before its connection is up are queued and handed to the connection first and in order, followed by later frames in order; none is duplicated.", "quantifier": "all interleavings of sends with connection setup", "why_tests_cant": "schedules", "anchors": ["hydra/src/node_registry.rs: node_send_frame, node_register_workers"]}
{"id": "C47", "title": "Losing a connection reports every remote link and monitor exactly once", "statement": "When the connection to a node goes down every process monitoring one of its processes gets exactly one Down(noconnection), every process linked to one of its processes gets one exit signal noconnection, and every node monitor gets exactly one NodeDown.", "quantifier": "all states of node tables", "why_tests_cant": "all histories", "anchors": ["hydra/src/node_registry.rs: node_remote_supervisor_down"]}
{"id": "C48", "title": "Forgetting or stopping a node still reports losses", "statement": "Links and monitors to a node that is disconnected by forget or by stopping the local node are reported as noconnection.", "quantifier": "all histories", "why_tests_cant": "all histories", "anchors": ["hydra/src/node_registry.rs: node_forget, node_local_stop, node_remote_supervisor_down"]}
{"id": "C49", "title": "Remote monitoring is exactly-once end to end", "statement": "With reliable in-order delivery between two nodes, a process monitoring a remote process receives exactly one Down with the reason of its death, for every interleaving of frames and deaths. If the connection is lost, at any moment and with any frames on their way, it is still exactly one Down, with noconnection unless the news of the death had arrived.", "quantifier": "all interleavings", "why_tests_cant": "schedules", "anchors": ["hydra/src/node_remote.rs: node_remote_receiver", "hydra/src/monitor.rs: monitor_install"]}
{"id": "C50", "title": "Remote demonitor cancels the remote monitor", "statement": "After demonitor of a monitor on a remote process, the remote node is told and no state for the reference remains.", "quantifier": "all states", "why_tests_cant": "all states", "anchors": ["hydra/src/monitor.rs: monitor_destroy"]}
{"id": "C51", "title": "Remote links are symmetric end to end", "statement": "With reliable in-order delivery, when a process linked to a remote process dies the other end receives an exit signal with its reason. If the connection is lost before the news arrives, it receives one with noconnection.", "quantifier": "all interleavings", "why_tests_cant": "schedules", "anchors": ["hydra/src/node_remote.rs: node_remote_receiver", "hydra/src/link.rs: link_install"]}
{"id": "C52", "title": "Accepting a peer keeps one connection per node", "statement": "At every moment a node has at most one active connection; a second connection for a node that already is connected is refused.", "quantifier": "all histories", "why_tests_cant": "all histories", "anchors": ["hydra/src/node_registry.rs: node_accept, node_register_workers"]}
{"id": "C53", "title": "Heartbeats keep a live peer and drop a silent one", "statement": "A connection whose peer sends some frame within every heartbeat timeout is never dropped by the receiver; one that stays silent for the timeout is dropped; an idle sender emits a ping every heartbeat interval.", "quantifier": "all arrival schedules", "why_tests_cant": "unbounded time", "anchors": ["hydra/src/node_remote.rs: node_remote_receiver, node_remote_sender"]}
{"id": "C54", "title": "Node options builders set exactly their own field", "statement": "Each NodeOptions builder method sets the option it is named after and no other.", "quantifier": "all option values and call sequences", "why_tests_cant": "all", "anchors": ["hydra/src/node_options.rs: NodeOptions"]}
{"id": "C55", "title": "Messages to a remote process reach exactly the addressed mailboxes", "statement": "A Send frame delivers one copy to every existing local target it lists (by pid, name or alias) and to nobody else.", "quantifier": "all frames, all states", "why_tests_cant": "all", "anchors": ["hydra/src/node_kernel.rs: node_forward_send"]}
{"id": "C56", "title": "A call returns the reply to that very call", "statement": "A successful call returns a value that the server sent as the reply to that call, never the reply of another call, for any number of concurrent callers.", "quantifier": "all interleavings of any number of callers", "why_tests_cant": "schedules", "anchors": ["hydra/src/gen_server.rs: GenServer::call"]}
{"id": "C57", "title": "A timed-out call leaves no stale reply behind", "statement": "After call returned Timeout, a late reply to it is never left in (or later added to) the mailbox of the caller.", "quantifier": "all interleavings of reply and timeout", "why_tests_cant": "schedules", "anchors": ["hydra/src/gen_server.rs: GenServer::call"]}
{"id": "C58", "title": "A server handles its messages one at a time and in order", "statement": "The server callbacks are invoked once for every message, in mailbox order, threading the state, and terminate is invoked exactly once with the exit reason when the loop ends normally.", "quantifier": "all message sequences and callbacks", "why_tests_cant": "unbounded sequences", "anchors": ["hydra/src/gen_server.rs: start_gen_server"]}
{"id": "C59", "title": "Start reports initialisation faithfully", "statement": "start returns the pid if and only if init succeeded within the timeout; if the name is taken it returns AlreadyStarted without running init; on timeout the half-started server is killed.", "quantifier": "all init outcomes, name states and timings", "why_tests_cant": "schedules", "anchors": ["hydra/src/gen_server.rs: start_gen_server"]}
{"id": "C60", "title": "Stop returns only after the server is gone", "statement": "stop returns success only after the server died with the requested reason; otherwise it returns an error.", "quantifier": "all server behaviours", "why_tests_cant": "schedules", "anchors": ["hydra/src/gen_server.rs: GenServer::stop"]}
{"id": "C61", "title": "Children start in order and stop in reverse order", "statement": "A supervisor starts its children in specification order; on shutdown it stops the running ones in reverse order; if a child fails to start the ones already started are stopped in reverse order and the start fails.", "quantifier": "all child lists and start outcomes", "why_tests_cant": "all lists", "anchors": ["hydra/src/supervisor.rs: start_children, terminate_children"]}
{"id": "C62", "title": "Restart policy decides who is restarted", "statement": "After a child exits it is restarted iff it is permanent, or transient and its exit was abnormal; temporary children are never restarted and their specification is removed.", "quantifier": "all children and reasons", "why_tests_cant": "all", "anchors": ["hydra/src/supervisor.rs: restart_exited_child"]}
{"id": "C63", "title": "Restart intensity is bounded", "statement": "The supervisor gives up exactly when more than max_restarts restarts fall inside max_duration; in every window of max_duration it performs at most max_restarts restarts.", "quantifier": "all sequences of restart times", "why_tests_cant": "unbounded sequences", "anchors": ["hydra/src/supervisor.rs: add_restart"]}
{"id": "C64", "title": "OneForOne leaves siblings alone", "statement": "With OneForOne the exit of a child starts or stops no other child.", "quantifier": "all supervisors", "why_tests_cant": "all", "anchors": ["hydra/src/supervisor.rs: restart"]}
{"id": "C65", "title": "OneForAll and RestForOne restart the right set, never temporary children", "statement": "OneForAll stops and restarts every child, RestForOne those started after the failed one, in order; a temporary child is never restarted by a strategy.", "quantifier": "all child lists", "why_tests_cant": "all", "anchors": ["hydra/src/supervisor.rs: restart, restart_multiple_children"]}
{"id": "C66", "title": "Child ids are unique and start_child is idempotent", "statement": "No two children share an id; start_child on an existing id returns AlreadyStarted/AlreadyPresent and changes nothing.", "quantifier": "all histories of requests and exits", "why_tests_cant": "unbounded histories", "anchors": ["hydra/src/supervisor.rs: start_new_child, init_children"]}
{"id": "C67", "title": "delete/terminate/restart_child answer by state", "statement": "delete_child succeeds iff the child exists and is stopped; terminate_child stops a running child and keeps its spec unless temporary; restart_child succeeds only for an existing stopped child.", "quantifier": "all states and ids", "why_tests_cant": "all", "anchors": ["hydra/src/supervisor.rs: delete_child_by_id, terminate_child_by_id, restart_child_by_id"]}
{"id": "C68", "title": "Automatic shutdown triggers as configured", "statement": "With AnySignificant the supervisor stops when a significant child exits by itself; with AllSignificant it stops when the last significant child has exited; with Never it does not stop.", "quantifier": "all child lists", "why_tests_cant": "all", "anchors": ["hydra/src/supervisor.rs: check_auto_shutdown"]}
{"id": "C69", "title": "Child counts agree with the child list", "statement": "count_children and which_children agree: specs, active, workers and supervisors count the listed children; a child is reported with a process only while that process runs.", "quantifier": "all states", "why_tests_cant": "all", "anchors": ["hydra/src/supervisor.rs: count_children, which_children"]}
{"id": "C70", "title": "The supervisor survives every request", "statement": "No sequence of start/terminate/restart/delete child requests and child exits makes the supervisor panic.", "quantifier": "all histories", "why_tests_cant": "unbounded histories", "anchors": ["hydra/src/supervisor.rs: start_new_child"]}
{"id": "C71", "title": "Shutting a child down leaves it dead and its exit flushed", "statement": "When the shutdown of a local child returns, for every mode and every interleaving, the child is dead and the caller holds no Exit message of it and gets none later. A brutal kill sends just Kill, an unlimited shutdown never kills, a limited one sends shutdown and then at most one Kill. The call always reports success, whatever the child exited with.", "quantifier": "all shutdown modes, child reactions and interleavings", "why_tests_cant": "any number of other processes acting between any two steps of the shutdown", "anchors": ["hydra/src/shutdown.rs: shutdown_brutal_kill, shutdown_timeout, shutdown_infinity"]}
{"id": "C72", "title": "A Registry key maps to at most one live process", "statement": "After any history each key resolves to at most one process, a process is removed from the registry when it dies, and lookup returns the process last started for the key.", "quantifier": "all histories", "why_tests_cant": "unbounded histories", "anchors": ["hydra/src/registry.rs: start_by_key, remove_process, lookup"]}
{"id": "C73", "title": "Registry start is exclusive", "statement": "Starting a process for a key that is present returns AlreadyStarted with its pid and starts nothing.", "quantifier": "all states", "why_tests_cant": "all", "anchors": ["hydra/src/registry.rs: start_by_key"]}
{"id": "C74", "title": "Registry without a start routine reports StartNotSupported", "statement": "start_process on a registry that has no start routine returns StartNotSupported.", "quantifier": "all states", "why_tests_cant": "all", "anchors": ["hydra/src/registry.rs: start_by_key"]}
{"id": "C75", "title": "Stopping a Registry stops all its processes", "statement": "When the registry terminates all processes it started are shut down.", "quantifier": "all states", "why_tests_cant": "all", "anchors": ["hydra/src/registry.rs: terminate_children"]}
{"id": "C76", "title": "Websocket commands are sent in order up to the first close", "statement": "Commands returned by a handler are sent in order; nothing is sent after a Close.", "quantifier": "all command lists", "why_tests_cant": "all", "anchors": ["hydra-websockets/src/websocket_handler.rs"]}
{"id": "C77", "title": "The websocket terminate callback runs once however the connection ends", "statement": "terminate is invoked exactly once for every way a websocket connection ends.", "quantifier": "all histories", "why_tests_cant": "all", "anchors": ["hydra-websockets/src/websocket_handler.rs"]}
{"id": "C78", "title": "Application::test panics unless the application exits cleanly", "statement": "test panics unless the main process exits with normal or shutdown.", "quantifier": "all exit reasons", "why_tests_cant": "all reasons", "anchors": ["hydra/src/application.rs: test"]}
{"id": "C79", "title": "await_many keeps the order of its tasks", "statement": "The results of awaiting many tasks are in the order of the tasks, one per task, whatever order they complete in.", "quantifier": "all task lists, all completion orders", "why_tests_cant": "factorially many orders", "anchors": ["hydra/src/task.rs: await_many"]}
{"id": "C80", "title": "Equality between references and destinations always answers", "statement": "Comparing a Reference with a Dest returns true exactly when the Dest is that alias.", "quantifier": "all references, dests", "why_tests_cant": "all", "anchors": ["hydra/src/dest.rs: PartialEq"]}
{"id": "C81", "title": "A receive of one type leaves messages for other types receivable", "statement": "Receiving or selecting with one message type does not change what a later receive with another type can read: a message from a remote node that was passed over stays readable as its own type.", "quantifier": "all mailboxes, types and filters", "why_tests_cant": "all mailboxes", "anchors": ["hydra/src/process_receiver.rs: ProcessReceiver::process_item (remote messages are converted in place before the filter decides)"]}
{"id": "C82", "title": "Stopping the node terminates its connections", "statement": "After Node::stop every connection of the node, initiated or accepted, is closed.", "quantifier": "all sets of connections, whoever initiated them", "why_tests_cant": "all histories of connecting and accepting", "anchors": ["hydra/src/node_remote.rs: node_remote_accepter, node_remote_connector", "hydra/src/node_local.rs: NodeLocalSupervisor"]}
{"id": "C83", "title": "A node can be restarted right after it was stopped", "statement": "Starting the node again after stop keeps the new node registered, for every schedule of the clean-up of the old one.", "quantifier": "all schedules of stop, start and the asynchronous clean-up", "why_tests_cant": "schedules", "anchors": ["hydra/src/node_local.rs: NodeLocalSupervisor::drop", "hydra/src/node_registry.rs: node_local_panic"]}
{"id": "C84", "title": "A supervisor never loses track of a running child", "statement": "Every process a supervisor started that has neither exited nor been shut down by it is listed by which_children, after any history; once the supervisor has stopped none of them is left.", "quantifier": "all child specifications, start outcomes and event histories", "why_tests_cant": "unbounded histories", "anchors": ["hydra/src/supervisor.rs: restart, start_children, terminate_children"]}
{"id": "C85", "title": "A Node keeps its identity across nodes", "statement": "A Node value serialised on one node and deserialised on another denotes the same node.", "quantifier": "all node values, all sender and receiver states", "why_tests_cant": "all node tables", "anchors": ["hydra/src/node.rs: Serialize/Deserialize"]}
{"id": "C86", "title": "A Dest keeps its target across nodes", "statement": "A destination (pid, registered name or alias) serialised on one node and deserialised on any distributed node denotes the same target.", "quantifier": "all destinations, all sender and receiver states", "why_tests_cant": "all node tables", "anchors": ["hydra/src/dest.rs: Dest", "hydra/src/pid.rs", "hydra/src/reference.rs", "hydra/src/node.rs"]}
{"id": "C87", "title": "Application::run ends with its main process and shuts it down gracefully", "statement": "run returns only if start failed or the main process exited; it asks the main process to shut down exactly when a termination signal arrives, and kills it only when the shutdown timeout message arrives.", "quantifier": "all histories of messages and signals", "why_tests_cant": "unbounded histories", "anchors": ["hydra/src/application.rs: run"]}
{"id": "C88", "title": "Registry::remove takes a process out of the registry and leaves it running", "statement": "remove returns the process registered for the key and frees the key at one moment; the process is not stopped, neither then nor when the registry ends later.", "quantifier": "all registry states and histories", "why_tests_cant": "unbounded histories and races with the registry process", "anchors": ["hydra/src/registry.rs: Registry::remove, remove_by_key, handle_cast, Drop for Registry"]}
{"id": "C89", "title": "A link set up while its target dies still signals", "statement": "For every interleaving of a link installation with the death of the other process, the linking process is signalled exactly once.", "quantifier": "all interleavings", "why_tests_cant": "schedules", "anchors": ["hydra/src/link.rs: link_install, link_create, link_process_down", "hydra/src/process_registry.rs: process_exists_lock"]}
{"id": "C90", "title": "Every websocket ping is answered before the handler sees it", "statement": "Whenever the handler is given a ping, a pong with the same data has been sent right before; a ping that arrives on an open websocket is answered.", "quantifier": "all histories", "why_tests_cant": "all histories", "anchors": ["hydra-websockets/src/websocket_handler.rs: start_websocket_handler"]}
{"id": "C91", "title": "No NodeDown after Node::demonitor", "statement": "After Node::demonitor(r) has returned, the caller never receives a NodeDown message for r; its entry in the monitors of the node is gone (violated for messages a selective receive has already set aside).", "quantifier": "all histories before and after the call, all receive types and filters", "why_tests_cant": "The message may sit in the channel, be on its way or be set aside; every position and every later history counts.", "anchors": ["node.rs: Node::demonitor", "node_registry.rs: node_monitor_destroy", "process.rs: ProcessReceiver", "process_receiver.rs"]}
{"id": "C92", "title": "Messages to a process of a connected node arrive in order, each once", "statement": "While a connection stays up, the messages that the processes of one node send to a process of the other one are put in its mailbox in the order in which they were sent, each once (and each as often as the process was listed); when nothing is on its way, all have arrived.", "quantifier": "all interleavings of the operations of both nodes and of arrivals of frames", "why_tests_cant": "all schedules", "anchors": ["process_kernel.rs: process_sendable", "node_kernel.rs: forward_send", "node_remote.rs: node_remote_sender, node_remote_receiver", "node_registry.rs: node_send_frame, node_register_workers"]}
{"id": "C93", "title": "Exit signals to processes of a connected node", "statement": "While a connection stays up, the exit signals for processes of the other node are applied there in the order in which they were sent, each once, with the same effect as those of a local process (documented signal table); a killed process is not alive when nothing is on its way.", "quantifier": "all interleavings of the operations of both nodes and of arrivals of frames", "why_tests_cant": "all schedules", "anchors": ["process.rs: Process::exit", "node_kernel.rs", "node_remote.rs: node_remote_receiver", "process_registry.rs: process_exit"]}
{"id": "C94", "title": "The alias of a monitor ends with the Down of the monitor", "statement": "Once the Down message for a monitor created with monitor_alias has been put in the mailbox of the caller, the alias of that monitor is inactive for ever: messages sent to it reach nobody.", "quantifier": "all histories before the monitor, between the monitor and the Down, and after it; all targets", "why_tests_cant": "all histories", "anchors": ["hydra/src/process.rs: Process::monitor_alias", "hydra/src/monitor.rs: monitor_install, monitor_process_down", "hydra/src/node_registry.rs: node_register_supervisor_down"]}
{"id": "C95", "title": "Starting and stopping the node", "statement": "Node::start makes the node alive with the given name and address and returns a fresh process that runs it; starting it twice and stopping it when it is not started panic the caller and change nothing else; Node::stop kills that process and leaves a node that knows no other node, has no identity and holds no frame back.", "quantifier": "all histories before", "why_tests_cant": "all histories", "anchors": ["hydra/src/node_registry.rs: node_local_start, node_local_stop, node_local_panic, node_alive", "hydra/src/node.rs: Node::start, Node::stop"]}
{"id": "C96", "title": "Node::connect and Node::monitor begin a connection unless there is one", "statement": "After either call a process runs or attempts the connection; if there was one already, no second one is started and the state of the node does not change.", "quantifier": "all histories before, all nodes", "why_tests_cant": "all node tables", "anchors": ["hydra/src/node_registry.rs: node_register", "hydra/src/node.rs: Node::connect, Node::monitor"]}
{"id": "C97", "title": "The monitors that processes of a lost node held are removed", "statement": "When the connection with a node is lost, the monitors its processes held on local processes are removed from those processes, whatever happened since they were set up.", "quantifier": "all histories before, between and after", "why_tests_cant": "all histories", "anchors": ["hydra/src/node_registry.rs: node_remote_supervisor_down, node_process_monitor_cleanup", "hydra/src/node_remote.rs: node_remote_receiver"]}
{"id": "C98", "title": "Node::list and Node::list_by_state agree", "statement": "The nodes in Node::list are exactly those that list_by_state gives as known, connected or pending, each in one state; a node is known exactly if no process runs a connection with it; only the local node is current, exactly while it is alive.", "quantifier": "all histories", "why_tests_cant": "unbounded histories", "anchors": ["hydra/src/node_registry.rs: node_list, node_list_filtered, node_register, node_accept, node_disconnect, node_forget, node_remote_supervisor_down"]}
{"id": "C99", "title": "Pids of a forgotten node are no longer reachable", "statement": "After Node::forget (or Node::stop) the existing pids of that node reach nobody for ever, even if the node is connected again: messages and exit signals have no effect, monitors and links report noconnection at once.", "quantifier": "all histories before and after", "why_tests_cant": "all histories", "anchors": ["hydra/src/node_registry.rs: node_forget, node_send_frame, node_lookup_remote", "hydra/src/node.rs: Node::forget"]}
{"id": "C100", "title": "A child whose restart failed is tried again", "statement": "Whenever which_children reports a child as restarting, a retry is pending that runs its start routine (or makes the supervisor give up because of the restart limit); no child stays in that state for good.", "quantifier": "all child specifications, strategies, start outcomes and event histories", "why_tests_cant": "unbounded histories", "anchors": ["hydra/src/supervisor.rs: restart, restart_multiple_children, try_again_restart, terminate_child_by_index, handle_cast"]}
{"id": "C101", "title": "Nodes that connect to each other end up connected, and agree on it", "statement": "After Node::connect between two nodes, on one side or on both, any number of times, once all handshakes and failures have run their course both nodes regard each other as connected, over one and the same connection, or (only after a failure) neither does; everything settles when no more attempts are made; an established connection is never replaced by a later attempt.", "quantifier": "all numbers of connection attempts, all interleavings of the handshakes, refusals and failures on both sides", "why_tests_cant": "race between accept and connect on two machines", "anchors": ["hydra/src/node_remote.rs: node_remote_accepter, node_remote_connector, node_remote_supervisor", "hydra/src/node_registry.rs: node_accept, node_register, node_remote_supervisor_down", "hydra/src/node.rs: Node::connect"]}
{"id": "C102", "title": "Registry::stop_process stops the process of the key and frees the key", "statement": "stop_process for a key that is present sends the process of that key (and no other) the exit signal shutdown, frees the key, forgets the process and reports success; for a key that is absent it reports NotFound and changes nothing.", "quantifier": "all keys, registry states, and interleavings with other users of the registry", "why_tests_cant": "concurrent access to the table", "anchors": ["hydra/src/registry.rs: stop_by_key, handle_call, Registry::stop_process"]}
{"id": "C103", "title": "API calls never deadlock", "statement": "Whatever API calls any number of threads make at the same time, and whatever the nodes and dying processes do meanwhile: as long as some call has not returned, some thread can go on, so that every call returns and no lock stays held.", "quantifier": "all numbers of threads, all sequences of calls, all contents of the tables, all schedules and all assignments of keys to shards", "why_tests_cant": "a deadlock needs one schedule among very many", "anchors": ["hydra/src/process_registry.rs: process_register, process_unregister, process_exists_lock", "hydra/src/node_registry.rs: node_register, node_accept, node_register_workers, node_send_frame, node_remote_supervisor_down, node_disconnect, node_local_stop", "hydra/src/link.rs: link_install, link_process_down", "hydra/src/monitor.rs: monitor_install, monitor_process_down", "hydra/src/alias.rs: alias_retrieve", "hydra/src/registry.rs: lookup_process, register_process", "hydra/src/process.rs: Drop for Process, spawn_internal"]}
{"id": "C104", "title": "Process::info tells what the runtime will do", "statement": "Process::info answers exactly for the processes that exist. The name it reports is the one under which whereis finds the process; trap_exit is the flag last set; links are exactly the processes that get an exit signal when the process dies, and monitored_by the ones that get a Down (as often as listed); message_queue_len is the number of messages that the process can still receive.", "quantifier": "all histories of all operations, all processes", "why_tests_cant": "every history that can produce the tables", "anchors": ["hydra/src/process.rs: Process::info", "hydra/src/process_registry.rs: process_info", "hydra/src/link.rs: link_fill_info", "hydra/src/monitor.rs: monitor_fill_info"]}
{"id": "C105", "title": "A string denotes at most one node, and conversion and comparison agree on it", "statement": "Node::from(string) is the node that the string denotes (\"local\", or name@address); strings that denote none panic with a message about what is wrong; comparing a node with a string answers for every string, and says yes exactly if the string denotes the node; every node can be written as a string.", "quantifier": "all strings, all nodes, all address parsers", "why_tests_cant": "all strings", "anchors": ["hydra/src/node.rs: From<&str>/From<String> for Node, PartialEq<&str>, PartialEq<(&str, SocketAddr)>"]}
{"id": "C106", "title": "Values that cannot be serialised can be sent to local processes only", "statement": "Sending a Local value to local processes delivers it; a send that would have to serialise it panics the caller, and then nobody has received anything.", "quantifier": "all destinations and lists of destinations, all states", "why_tests_cant": "all destination lists", "anchors": ["hydra/src/local.rs", "hydra/src/process_kernel.rs: process_sendable", "hydra/src/process.rs: Process::send"]}
{"id": "C107", "title": "The builder of a child specification keeps what was said last", "statement": "Every builder call of ChildSpec sets its own field and the last call for a field counts; fields never set have the documented defaults; permanent children are never significant.", "quantifier": "all sequences of builder calls", "why_tests_cant": "all orders of calls", "anchors": ["hydra/src/child_spec.rs"]}
{"id": "C108", "title": "A websocket server and its accepting process live together", "statement": "The process that accepts the connections of a websocket server never outlives the server, however the server ends; if the accepting process dies the server does not go on without it; if the address cannot be bound the start fails with a reason that says why and no process is left.", "quantifier": "all moments and all ways of ending of both processes, all interleavings with the rest of the system", "why_tests_cant": "the server can end at any point and for many reasons", "anchors": ["hydra-websockets/src/websocket_server.rs: init, terminate, server_process", "hydra/src/gen_server.rs: default callbacks, start_gen_server"]}
{"id": "C109", "title": "An exit with reason normal is the own doing of the process", "statement": "If the links and monitors of a process are told that it exited with reason normal, then its function returned or it asked itself to exit normally: no other process, panic, lost connection or signal can produce that report.", "quantifier": "all histories of all operations", "why_tests_cant": "every way in which a process can end", "anchors": ["hydra/src/process_registry.rs: process_exit, process_exit_signal_linked", "hydra/src/process.rs: Drop for Process, spawn_internal"]}
{"id": "C110", "title": "Watching a remote process is not lost to a race with the connection", "statement": "Whatever happens to the connection (attempts, incoming connections, losses, on other threads) between the steps of a monitor or link call for a remote process: once the call has returned the caller was told, is being told, or the watch is set up over a connection whose loss will be reported; nobody is told twice; and the frames of all threads reach the connection in one order, those that waited for it first.", "quantifier": "all interleavings of the table accesses of any number of calls with those of the connections", "why_tests_cant": "schedules", "anchors": ["hydra/src/node_registry.rs: node_register, node_send_frame, node_register_workers, node_accept, node_remote_supervisor_down, node_process_monitor_down, node_process_link_down", "hydra/src/monitor.rs: monitor_install", "hydra/src/link.rs: link_install"]}
{"id": "C111", "title": "Nobody waits for a dead server", "statement": "Suppose a process waits in GenServer::stop, in GenServer::call or in the shutdown of a supervised child for a local server or child (addressed by pid or by name), and what it asked for is gone: there was no such process when the wait began, or it has died since. Then the very next poll of the waiting process finds a message and the operation returns after at most two more steps of its own, without its time limit: no schedule makes it miss the death, also when the death falls between the monitor and the wait, between two polls, or into the second wait of a shutdown whose time was up.", "quantifier": "every history, every interleaving of all other processes with the waiting one, every moment of the death, every server address (local pid or name), every shutdown mode, with and without time limit", "why_tests_cant": "A lost wake-up needs one particular interleaving of the death with the steps of the waiting process; tests with a time limit do not even notice that the limit, and not the death, ended the wait.", "anchors": ["hydra/src/gen_server.rs: stop, call", "hydra/src/shutdown.rs: shutdown_brutal_kill, shutdown_timeout, shutdown_infinity", "hydra/src/monitor.rs: monitor_install, monitor_process_down", "hydra/src/process_receiver.rs: select"]}
{"id": "C112", "title": "A supervisor does what its restart policy says while the node goes on around it", "statement": "A supervisor process handles one message after the other. For each it makes the decision that its strategy, its restart limits and the outcomes of the start routines demand, and carries it out before it looks at the next message: it runs the start routines and shuts children down in the order decided, one at a time, however long each takes and whatever the children, the callers and all other processes do meanwhile. When the last start of a restart fails it sends itself exactly one message, which names that child, to try again; otherwise none.", "quantifier": "all start routines (arbitrary programs of the supervisor process), all interleavings with all other processes, all sequences of exits, requests and retries, all strategies and child lists", "why_tests_cant": "a shutdown or a start takes many steps, and anything can happen between them", "anchors": ["hydra/src/supervisor.rs: start_children, terminate_children, init_children, restart_exited_child, restart, restart_multiple_children, try_again_restart, GenServer for Supervisor", "hydra/src/gen_server.rs: start_gen_server", "hydra/src/shutdown.rs"]}
{"id": "C113", "title": "A supervisor leaves no child behind", "statement": "When a supervisor process has ended, for whatever reason (also because init failed half way), every process that it had started, at its start, on request or as a restart, is dead.", "quantifier": "all histories of the node, all start routines, all ways in which the supervisor can end, all moments at which children exit", "why_tests_cant": "a leak needs a child that is started or exits at an inconvenient moment of a shutdown", "anchors": ["hydra/src/supervisor.rs: terminate_children, init_children, restart_exited_child, terminate", "hydra/src/shutdown.rs", "hydra/src/process.rs: Process::exit"]}
{"id": "C114", "title": "Old children are dead before new ones run", "statement": "The shutdown of a child returns only when the child is dead, before the supervisor does anything else. With OneForAll no start routine of a restart begins before the processes of all other children are dead, with RestForOne before those of all later children are dead. A supervisor that ends shuts its children down in reverse order, and each shutdown begins only when the later children are dead. A shutdown sends the child exactly the signals that its shutdown option demands: Kill; or \"shutdown\"; or \"shutdown\" and, when the time is up, Kill.", "quantifier": "all histories of the node, all strategies, child lists and start routines, all interleavings", "why_tests_cant": "an overlap of the old and the new generation needs a child that dies slowly, at the right moment", "anchors": ["hydra/src/supervisor.rs: terminate_child_by_index, restart_multiple_children, terminate_children", "hydra/src/shutdown.rs: shutdown_brutal_kill, shutdown_timeout, shutdown_infinity"]}
{"id": "C115", "title": "Nobody waits for a server on a lost node", "statement": "Suppose a process waits in GenServer::stop, in GenServer::call or in the shutdown of a child for a server or child on another node (addressed by pid or by name), and it is lost: the node of the pid was not known when the wait began, or since then the connection went down and this was noticed, or the node reported the death. Then the very next poll of the waiting process finds a message and the operation returns after at most two more steps of its own, without its time limit, wherever the loss falls between the steps of the waiting process. (When the connection ends because the node is forgotten or the local node is stopped, nothing is reported at all: C48.)", "quantifier": "every history, every interleaving with the waiting process, every moment of the loss, every remote address, every shutdown mode, with and without time limit", "why_tests_cant": "A lost wake-up needs one particular interleaving of the loss with the steps of the waiting process, over a network.", "anchors": ["hydra/src/gen_server.rs: stop, call", "hydra/src/shutdown.rs", "hydra/src/monitor.rs: monitor_install", "hydra/src/node_registry.rs: node_remote_supervisor_down, node_process_monitor_down", "hydra/src/process_receiver.rs: select"]}
{"id": "C116", "title": "Calls to one server are linearizable", "statement": "Take a server whose callbacks leave it to the loop to answer calls (handle_call returns its reply). Every call to it that returned a value was handled exactly once: the server ran handle_call with this very request and it returned this value. If one call had returned before another one began, even by different processes, the server handled the first before the second. And if the callbacks compute a function of the server state, the callbacks the server ran, in this order, are one sequential run of that function, each from the state the one before left. (References are not forged, and the server runs on the caller's node.)", "quantifier": "every history of the node, every interleaving of callers and server, every server and every callback program, every number of rounds, every pair of calls by whatever processes", "why_tests_cant": "A linearizability violation needs a particular interleaving of several callers, the server and possibly timeouts; the property is about every pair of calls in every history.", "anchors": ["hydra/src/gen_server.rs: call, reply, start_gen_server", "hydra/src/process_receiver.rs: select", "hydra/src/process_kernel.rs: process_send"]}
{"id": "C117", "title": "A message is received at most once", "statement": "If in a history only one operation sends a certain message (or any message of a certain set), a send to a single destination or the arrival of a frame with one target, then at most one receive in the whole history, by whatever process, returns that message. Receives that pass over it, time out or are cancelled, receives of other types and removes do not duplicate it.", "quantifier": "every history, every set of messages of a type, every sender, destination (pid, name, alias) and receiver, every mix of receive types that respects Rust's downcasts", "why_tests_cant": "Duplication would need a particular sequence of passed-over, cancelled and resumed receives; the claim covers all of them.", "anchors": ["hydra/src/process_receiver.rs: select, remove, process_item", "hydra/src/process_kernel.rs: process_send", "hydra/src/node_kernel.rs: node_forward_send"]}
{"id": "C118", "title": "An earlier message is received before a later one", "statement": "If a message x is put into the mailbox of a process before any message y is sent, and a receive that would accept x returns y, then the process has received x before (unless it looked at x as another type or removed it on purpose): only a selective receive lets a later message overtake. In particular a server handles a cast before every request that is sent later, so a process that casts and then calls the server, or calls it after another process did, sees the effect of the cast.", "quantifier": "every history, schedule and mailbox, every two sets of messages of a type, every filter, strict or not, also when the messages arrive while the receive is waiting; every server whose callbacks do not themselves receive the requests", "why_tests_cant": "Overtaking would need a particular combination of stashed messages, waiting receives and arrival times.", "anchors": ["hydra/src/process_receiver.rs: select, receive, process_item", "hydra/src/gen_server.rs: cast, call, start_gen_server", "hydra/src/process_kernel.rs: process_send"]}
{"id": "C119", "title": "Calls to a server of another node are linearizable", "statement": "A call from one node to a server of another node that returns x was handled by the server exactly once, with the message and the reference of this very call, and handle_call returned what arrived as x; a call that had returned before another one began, by whatever processes of the calling node, was handled before it. The pids and references in the messages mean the same on both nodes.", "quantifier": "every schedule of the two nodes and of the connection between them (which stays up), every server whose callbacks do not themselves answer calls, every caller, every serialization that renames pids and references of the sender", "why_tests_cant": "A duplicated or crossed reply would need a particular interleaving of two nodes, the frames in both directions and the rounds of the server.", "anchors": ["hydra/src/gen_server.rs: call, reply, start_gen_server", "hydra/src/node_remote.rs: node_remote_receiver, node_remote_sender", "hydra/src/alias.rs: alias_retrieve", "hydra/src/reference.rs: Serialize, Deserialize", "hydra/src/pid.rs: Serialize, Deserialize"]}
{"id": "C120", "title": "Read your writes on another node", "statement": "If a process of one node casts to a server of another node, and after that a process of the same node calls that server, and the call returns, then the server handled the cast before the call: the answer reflects the cast, even if the call began while the cast was still on its way.", "quantifier": "every schedule of the two nodes and of the connection between them (which stays up), every server whose callbacks leave its requests in the mailbox, every pair of processes of the calling node", "why_tests_cant": "The cast and the call race across the connection, a sender process, a receiver process and the mailbox of the server; a reordering would show only in particular interleavings.", "anchors": ["hydra/src/gen_server.rs: cast, call, start_gen_server", "hydra/src/node_remote.rs: node_remote_receiver, node_remote_sender", "hydra/src/node_registry.rs: node_send", "hydra/src/process_receiver.rs: select"]}
{"id": "C121", "title": "One order for the calls of both nodes", "statement": "A server that is called by processes of its own node and by processes of another node handles two calls in the order in which they happened, if the first had returned before the second began, whichever of the two came from the other node.", "quantifier": "every schedule of the two nodes and of the connection between them (which stays up), every server whose callbacks do not themselves answer calls, every pair of callers on different nodes", "why_tests_cant": "The two calls take different ways (a mailbox put, and a frame over the connection), and the order would be broken only by particular interleavings.", "anchors": ["hydra/src/gen_server.rs: call, reply, start_gen_server", "hydra/src/node_remote.rs: node_remote_receiver, node_remote_sender", "hydra/src/alias.rs: alias_retrieve"]}
{"id": "C122", "title": "The supervisor functions return what the supervisor decided", "statement": "Supervisor::count_children, which_children, start_child, terminate_child, restart_child and delete_child, called by any process of the supervisor's node: whenever the function returns anything but a failed call, the supervisor decided this very question exactly once, after the function was called and before it returned, and the result is the decision that the rules of the supervisor give in the state it was in at that moment. The function never panics on the reply. Functions called one after the other, even by different processes, are decided in that order, so count_children after a start_child that returned Ok counts the child unless something happened to it in between.", "quantifier": "every history of the node, every interleaving of callers, supervisor, children and other processes, every child list, strategy and start routine (that does not itself answer calls), every question and every pair of questions", "why_tests_cant": "A wrong or stale answer needs a particular interleaving of several callers with restarts and shutdowns in the supervisor.", "anchors": ["hydra/src/supervisor.rs: count_children, start_child, terminate_child, restart_child, delete_child, which_children, GenServer for Supervisor", "hydra/src/gen_server.rs: call"]}
{"id": "C123", "title": "Ok of terminate_child and start_child can be relied on", "statement": "When terminate_child has returned Ok, the process that the child had when the supervisor decided is dead. When start_child or restart_child has returned Ok(Some(pid)), the supervisor has run the start routine of a child with this id to its end and it returned this pid.", "quantifier": "every history of the node and interleaving, every caller, every child list, strategy and shutdown mode, every start routine that reports processes that exist", "why_tests_cant": "An Ok that comes too early shows only if the child dies or starts slowly and the caller is quick.", "anchors": ["hydra/src/supervisor.rs: terminate_child, start_child, restart_child, terminate_child_by_index, start_new_child, restart_child_by_id", "hydra/src/shutdown.rs"]}
{"id": "C124", "title": "A call contains the whole of its handling", "statement": "If a GenServer call returns, then the server ran handle_call for this very request, from beginning to end, after the call began and before it returned, and it returned that reply. The requests of two calls are handled one after the other, never interleaved, even if the calls overlap.", "quantifier": "every history of the node, every server whose callbacks do not themselves answer calls, every pair of calls by any processes, overlapping or not", "why_tests_cant": "Handling outside the call, or handling that overlaps with that of another call, would need a particular interleaving of the callers and the rounds of the server.", "anchors": ["hydra/src/gen_server.rs: call, reply, start_gen_server"]}
{"id": "C125", "title": "The registry is linearizable", "statement": "Registry::lookup, lookup_or_start, start_process, stop_process, count, list and remove, called by any number of processes with the local name of the registry or its pid (so partly answered from the shared table, partly by the process of the registry): every call that returns anything but a failed call acts on the registry at one moment of its own between its beginning and its end, at which it returns what it returns alone and does to the keys what it does alone; the moments of different calls differ, and a call that has returned before another begins acts before it. A stop_process that succeeds has found a process and told it to shut down (a remove that comes between may succeed too).", "quantifier": "every history of the node, every number of callers and calls, every interleaving with the registry, its children, deaths and restarts, every start routine that neither answers calls nor writes to the registry", "why_tests_cant": "Half of the functions read the shared table without the registry, the others ask it; an inconsistency shows only in a particular interleaving of several processes.", "anchors": ["hydra/src/registry.rs: lookup, lookup_or_start, start_process, stop_process, count, list, remove, start_by_key, stop_by_key, remove_by_key, GenServer for Registry", "hydra/src/gen_server.rs: call"]}
{"id": "C126", "title": "One process for a key", "statement": "In a period in which a key is not freed (nobody removes or stops it, its process does not die, the registry does not end), all calls that name a process for the key (lookup, lookup_or_start, start_process, also AlreadyStarted) name the same one, and at most one start_process succeeds, however many processes race for it.", "quantifier": "every history of the node, every period, every pair of calls by any processes, overlapping or not", "why_tests_cant": "Two processes for one key would come from a race between the check of the shared table and the start in the registry.", "anchors": ["hydra/src/registry.rs: lookup, lookup_or_start, start_process, lookup_or_start_by_key, start_by_key"]}
{"id": "C127", "title": "Processes that mind their own business cannot disturb the calls of others", "statement": "If every process of the node sends requests only by GenServer::call and replies only to requests that it has received, then no reply is ever sent for a call that does not exist, nobody but the caller sends the request of a call, and nobody but the server called answers it; so calls are linearizable (C116, C125) without further assumptions. GenServer::call, the server loop with such callbacks, the functions of Registry and the registry itself keep to this, also if they are cut off at any point.", "quantifier": "every history of the node, every set of programs, every interleaving, every point where a program is cut off", "why_tests_cant": "That no combination of processes can produce a stray reply is a statement about all programs and all interleavings.", "anchors": ["hydra/src/gen_server.rs: GenServerMessage, call, reply, start_gen_server", "hydra/src/registry.rs: client functions, impl GenServer"]}
{"id": "C128", "title": "A message waits only for the messages before it", "statement": "Once a message is in a mailbox, no message that arrives later is put before it and nothing but a receive takes it out. A message with at most k messages before it is among the next k+1 messages that the process receives with receives that accept everything; a request to a GenServer with at most k messages before it is handled by one of the next k+1 callbacks, and a call whose handle_call returns a reply is answered within them, however many messages other processes send meanwhile and whatever the callbacks do, unless the server terminates first.", "quantifier": "every history, every server, every interleaving with any number of senders, every k", "why_tests_cant": "That no flood of messages can starve a request is a statement about all schedules and all senders.", "anchors": ["hydra/src/process_receiver.rs: select, receive, process_item", "hydra/src/gen_server.rs: start_gen_server"]}
{"id": "C129", "title": "A server that waits cannot answer", "statement": "While a process sends no replies, for example while it waits in a GenServer::call of its own, no call to it returns Ok. So of two servers that call each other, the one that calls second gets no reply before the call of the first has ended, and a process that calls itself by its registered name always gets Timeout (or noproc, if the name is given up). A process that calls itself by its pid panics.", "quantifier": "every history of the node in which the processes mind their own business (C127), every server and every part of the history", "why_tests_cant": "That a cycle of calls cannot be answered in any schedule is a statement about all interleavings.", "anchors": ["hydra/src/gen_server.rs: call, reply", "hydra/src/monitor.rs: monitor_install"]}
{"id": "C130", "title": "A supervisor is one state machine for all who ask it", "statement": "Whatever processes use count_children, which_children, start_child, terminate_child, restart_child and delete_child of one supervisor, as often as they like and at the same time, in a node where every process minds its own business (C127): every function that does not report a failed call has its own place in one life of the supervisor, with its question and the answer that it returned; a function that had returned before another was called has its place before it. The functions, and a supervisor whose start routines do, mind their own business, wherever they are cut off.", "quantifier": "every history of the node, every number of concurrent users, every supervisor with any children, every interleaving", "why_tests_cant": "Linearizability of a concurrent object is a statement about all interleavings of all clients.", "anchors": ["hydra/src/supervisor.rs: count_children, start_child, terminate_child, restart_child, delete_child, which_children, impl GenServer", "hydra/src/gen_server.rs: call, start_gen_server"]}
{"id": "C131", "title": "A GenServer is one state machine for the callers of its own node and of a connected one", "statement": "Two nodes are connected, and every process on both minds its own business: it sends requests only with GenServer::call and replies only to requests that it has received; what comes from third nodes or was sent before the connection does not misuse references either. Then whatever processes of either node call a server of one of them, as often as they like and at the same time: there is one order in which the server handled the calls that returned; each has exactly one place in it, where handle_call got its request and returned its result; and a call that had returned before another one began comes before it, whether the two are of the same node or not. If the callbacks compute a function of the state, the results are those of this function applied in that order. A cast before a call of the same node is handled before it.", "quantifier": "every schedule of two connected honest nodes, every server, every family of local and remote calls that returned", "why_tests_cant": "needs all interleavings of two nodes and the line between them, and that nobody, anywhere, has misused a reference", "anchors": ["hydra/src/gen_server.rs:call,reply,start_gen_server", "hydra/src/node_remote.rs:node_remote_receiver,node_remote_sender", "hydra/src/process.rs:send,monitor_alias", "hydra/src/pid.rs", "hydra/src/reference.rs"]}
{"id": "C132", "title": "The console shows what is there", "statement": "Process::list has exactly the processes that exist, each once, and the list of nodes by state exactly the nodes in that state. A console client, on another node too, gets with list_processes exactly the processes of the node of the console, as pids of that node; whatever happens in between, processes_info for any of these pids is answered with the debug information of exactly these processes, in order, None for those that are gone. The console answers every request. (Violated for pids of other nodes than that of the console: it panics.)", "quantifier": "every reachable state of the two nodes, every list of pids, every history between the two requests", "why_tests_cant": "needs every history of the node tables of both nodes between the requests, which decides what a pid means when it comes back", "anchors": ["hydra/src/console.rs:handle_call,ConsoleServerMessage,list_processes,processes_info", "hydra/src/process_registry.rs:process_list", "hydra/src/node_registry.rs:node_list_filtered", "hydra/src/process.rs:info,list", "hydra/src/pid.rs"]}
{"id": "C133", "title": "Messages keep their order when a connection is lost and made again", "statement": "Whatever connections between two nodes are attempted, refused, lost and made again, by either of them and in any interleaving: what a node gets from the other one was sent by it, and nothing is got twice; what is got over one connection are the first of the messages that were given to it, in the order in which they were sent and without gaps (what waits for a connection is sent over it first); and all that is got, over all connections, is got in the order in which it was sent. (The last is violated in a rare schedule: a node that is late to accept a connection which the other one has already replaced; it holds if this does not happen.)", "quantifier": "every schedule of connection attempts, failures, sends and receptions of two nodes, unbounded numbers of connections and messages", "why_tests_cant": "needs every interleaving of the processes at both ends of every connection, including late ones", "anchors": ["hydra/src/node_registry.rs:node_send_frame,node_register_workers,node_accept,node_register,node_remote_supervisor_down", "hydra/src/node_remote.rs:node_remote_sender,node_remote_receiver,node_remote_supervisor,node_remote_accepter,node_remote_connector"]}
{"id": "C134", "title": "A server handles exactly the requests put into its mailbox, in order", "statement": "Whatever messages a GenServer gets, in whatever interleaving and whatever its callbacks receive meanwhile (as long as they leave its requests alone, as a call to another server does): the casts and calls that it has handled so far are the first ones of those put into its mailbox, in the same order, none left out and none twice; and as long as it runs, those put into its mailbox are those handled followed by those that wait in it. So if the callbacks compute a function of state and request, the state of a server with no waiting request is that function applied to all requests it was sent, in the order of their arrival. For a server on a connected node, the requests of a node are handled in the order in which that node sent them, and once nothing is on the line and nothing waits, all of them are.", "quantifier": "every history of the node, every server, every kind of requests, every number of rounds; every schedule of two connected nodes", "why_tests_cant": "an accounting of all messages over unbounded histories, with receives of other types in between that convert and stash messages", "anchors": ["hydra/src/gen_server.rs: start_gen_server", "hydra/src/process_receiver.rs: select, receive, remove, process_item", "hydra/src/process.rs: send", "hydra/src/node_remote.rs: node_remote_receiver"]}
{"id": "C135", "title": "Messages between connected nodes arrive in causal order, across destinations", "statement": "If any process of a node sends a message to a process of a connected node, and afterwards any process of it sends another message to any process of that node, then the second is never put into a mailbox before the first has been put into its own (if its process still exists), as long as the connection stays up. At every moment the messages that have arrived are those sent before some earlier moment, in the order in which they were sent, and none of them is missing at a process that exists. So what a process does because of a message it received comes after everything that the other node had sent before that message: if A casts x to a server and then tells B, and B casts y to that server, the server handles x before y.", "quantifier": "every schedule of two connected nodes, every set of senders and receivers, every message", "why_tests_cant": "the order across different mailboxes depends on the interleaving of two nodes and the connection; a reordering would show only under rare schedules", "anchors": ["hydra/src/process.rs: send", "hydra/src/node_registry.rs: node_send_frame, node_register_workers", "hydra/src/node_remote.rs: node_remote_sender, node_remote_receiver", "hydra/src/gen_server.rs: cast, start_gen_server"]}
{"id": "C136", "title": "A death is the last thing one hears of a process of a connected node", "statement": "A process monitors a process of a connected node, which sends it messages and dies at some time: every message is put into the mailbox before the Down, whatever happens in between, so when the Down is received everything the dead process had sent is there already. The same holds for the exit signal that a link makes, and for a monitor of a name that stood for the process.", "quantifier": "every schedule of two connected nodes, every message, every moment of the death and of the request for the monitor", "why_tests_cant": "whether the news of a death can overtake a message depends on the interleaving of the processes of two nodes and the connection between them", "anchors": ["hydra/src/process.rs: send, Drop for Process", "hydra/src/monitor.rs: monitor_process_down", "hydra/src/link.rs: link_process_down", "hydra/src/node_registry.rs: node_send_frame", "hydra/src/node_remote.rs: node_remote_sender, node_remote_receiver"]}
{"id": "C137", "title": "No death is missed", "statement": "A process that traps exits and is linked to a local process is told of its death, whatever happens and whenever it is: as long as it neither unlinks it nor stops trapping exits, the linked process is alive and still linked, or its exit message is in the mailbox until a receive of the process itself takes it. A process spawned with spawn_link is linked like this from the beginning. So Application::run does not miss the end of the process that start returned, and a supervisor does not miss the end of a child: every child that it started and did not itself stop is alive, or its exit message waits, or the supervisor has handled it.", "quantifier": "every history of the node, every receive of every type and filter, every moment of the death, every length of the run", "why_tests_cant": "a lost exit message would need a particular interleaving of the death with links, unlinks and receives that convert and stash messages", "anchors": ["hydra/src/link.rs: link_process_down", "hydra/src/process.rs: spawn_link, Drop for Process", "hydra/src/process_registry.rs: process_exit", "hydra/src/process_receiver.rs: select, remove", "hydra/src/application.rs: run", "hydra/src/supervisor.rs: handle_info, start_children", "hydra/src/shutdown.rs"]}
{"id": "C138", "title": "The console server of an application is kept running", "statement": "With the feature console, Application::run starts a console server before the application. As long as run goes on: when the console server of the time ends for a reason other than shutdown, and only then, another one is started; and its end is never missed: either it has ended with the reason shutdown, or it runs and is linked to the process of run, or its end has been put into the mailbox of that process. If a console server cannot be started again, run should go on without one.", "quantifier": "every history of the node, every application and every start of a console server, every order of the messages, every length of the run", "why_tests_cant": "the end of a console server can fall into any interleaving with the signals of other processes, during a restart and before the application is started", "anchors": ["hydra/src/application.rs: run", "hydra/src/console.rs: ConsoleServer, start_link", "hydra/src/link.rs: link_process_down"]}
{"id": "C139", "title": "The handshake connects nodes that hold the cookie, and nobody else", "statement": "On a network that delivers to every handshake whatever bytes it likes in whatever pieces: a handshake with a peer that holds the same cookie succeeds, however early its bytes arrive and however they are cut, and the frames that follow the hello are left for the decoder, none lost. A handshake ends well only if a node that holds the same cookie is at the other end; it is then the node with the name and the address given, for a connector the one it was started for; and this does not change while the connection lasts. A failed handshake stays failed. What a handshake reads is the first frame that it is sent, from the first byte on.", "quantifier": "every number of nodes and handshakes, every interleaving, every stream of bytes, every change of cookies, every attacker who does not know the key and cannot forge the keyed hash", "why_tests_cant": "an attacker is a universally quantified program: no test enumerates what it may send and when", "anchors": ["hydra/src/node_remote.rs: node_remote_accepter, node_remote_connector", "hydra/src/frame/hello.rs: Hello::new, validate", "hydra/src/frame/mod.rs: Codec", "hydra/src/node.rs: PartialEq<(&str, SocketAddr)> for Node"]}
{"id": "C140", "title": "A server does not outlive its parent", "statement": "A GenServer that was started with a link (start_link) ends when its parent ends. If it does not trap exits, it is killed at once, with the reason of its parent, unless the parent ended normally. If it traps exits, it is told whatever the reason: as long as its loop goes on, the parent exists, or the exit message of the parent waits in its mailbox (or the server was itself killed); and once this message is in the mailbox, with k items before it, the server runs at most k more callbacks and then terminate, exactly once. The callbacks must leave the parent to the loop: not unlink it, not stop trapping exits, not take its exit message.", "quantifier": "every server with arbitrary callbacks, every history of the node before and during the loop, every length of the loop, every moment of the end of the parent", "why_tests_cant": "the parent may die at any moment, in the middle of a callback of the server or while messages of others arrive; a test covers a few of these moments", "anchors": ["hydra/src/gen_server.rs: start_gen_server", "hydra/src/link.rs: link_process_down", "hydra/src/process_registry.rs: process_exit_signal_linked", "hydra/src/process_receiver.rs: ProcessReceiver"]}
{"id": "C141", "title": "A websocket connection gets its handler if and only if it is accepted in time", "statement": "A websocket server starts the handler of a connection only if the client completed the TLS handshake (if the server uses TLS), sent an upgrade request that WebsocketHandler::accept accepted, with the handler that accept returned for this request, and was sent the answer, all within handshake_timeout counted from the arrival of the connection, TLS included. Conversely every new connection that does all this in time gets its handler, whatever happened before and whatever other clients do or fail to do meanwhile. When the timeout has passed, no process is left that works on the handshake. A refused request gets no handler; the process of a connection panics only if accept does; a handler is started once.", "quantifier": "every number of connections, every interleaving of their events with the passing of time and with failures of the listener, every accept callback, every timeout and none", "why_tests_cant": "the moments at which bytes arrive, timers fire and other clients stall are not under the control of a test", "anchors": ["hydra-websockets/src/websocket_server.rs: server_accept, server_accept_tls, server_process", "hydra-websockets/src/websocket_handler.rs: WebsocketHandler::accept", "hydra-websockets/src/websocket_server_config.rs: handshake_timeout", "hydra/src/process.rs: timeout"]}
{"id": "C142", "title": "A supervision tree comes down with its root", "statement": "A supervisor that is linked to its parent when it starts does not outlive it: it goes on only while the parent exists, or while the exit message of the parent waits in its mailbox (or it was itself killed); with k items before that message it runs at most k more callbacks and then terminates, shutting its children down. So no process is left over from a tree whose root is gone: if a process of the tree still exists, then there is one in it whose own parent is gone and which is about to be dropped or has the exit message of its parent in its mailbox; and when all of these have been dealt with, no process of the tree exists without the root. The tree may consist of supervisors, other servers with arbitrary callbacks, and linked processes that do not trap exits (below parents that do not end normally, or that are supervisors that terminated).", "quantifier": "every supervision tree of every shape and depth, all child specifications and strategies, every history, every moment at which the root and the other processes end", "why_tests_cant": "the processes of the tree end concurrently with each other, and with restarts; tests cannot enumerate the interleavings, nor the shapes of trees", "anchors": ["hydra/src/supervisor.rs: Supervisor", "hydra/src/gen_server.rs: start_gen_server", "hydra/src/process.rs: Process::drop", "hydra/src/process_registry.rs: process_exit_signal_linked"]}
{"id": "C143", "title": "A process that is started again finds the name of its predecessor free", "statement": "When a supervisor restarts a child because the process of the child has exited, then before any start routine of this restart begins to run the old process is dead and no name resolves to it, and so it stays for ever; the same holds of the other children that are replaced with it (all with OneForAll, the later ones with RestForOne). So a restarted server that registers the same name is never refused because of its predecessor: if its start is refused with already_started, then at that moment the name is held by another process that exists, or the server has already been given another name. This holds in every interleaving of the single steps of register, unregister and of the end of a process: before anybody is told of the death of a process no name resolves to it any more, even if its registration was under way when it died.", "quantifier": "all child specifications and strategies, every history of the node in which the child does not itself send Exit messages to its supervisor, every interleaving of registrations, unregistrations and deaths", "why_tests_cant": "whether the name is free depends on the order in which the steps of the drop of the old process and of the restart happen; a test sees some of the orders", "anchors": ["hydra/src/process.rs: Process::drop, Process::register", "hydra/src/process_registry.rs: process_drop, process_name_remove, process_register", "hydra/src/gen_server.rs: start_gen_server", "hydra/src/supervisor.rs: restart_child"]}
{"id": "C144", "title": "which_children misses no living child", "statement": "At every moment at which a supervisor is between two messages, every process of its node that it has started (when it came up, on request, or as a restart) and that still exists is listed by which_children: whatever exits, retries, requests and shutdowns it has handled, it loses sight of no process that lives. So what is not listed is dead.", "quantifier": "all child specifications and strategies, every history of the node in which the process does not itself send Exit messages to its supervisor, every number of messages handled, all start routines", "why_tests_cant": "a lost child would need a particular order of exits, failed starts and requests, of which there are unboundedly many", "anchors": ["hydra/src/supervisor.rs: Supervisor, start_children, restart_exited_child, terminate_child, which_children", "hydra/src/gen_server.rs: start_gen_server"]}
{"id": "C145", "title": "A child that which_children shows as running is running", "statement": "At every moment at which a supervisor is between two messages, every child that which_children shows with a process and not restarting is a process that exists, unless the exit message of that process is already in the supervisor's mailbox (so that the next messages put the table right) or the supervisor was killed.", "quantifier": "all child specifications and strategies, every history of the node, every number of messages handled, all start routines that link a new process to the supervisor", "why_tests_cant": "a stale entry needs a particular order of exits and failed starts; the table is only wrong between two messages of a supervisor in a particular state", "anchors": ["hydra/src/supervisor.rs: which_children_info, restart_multiple_children, restart_exited_child, child_exited", "hydra/src/gen_server.rs: start_gen_server"]}
