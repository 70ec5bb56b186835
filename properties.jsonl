{"id": "C01", "title": "ReserveContainer accounting", "statement": "After any sequence of reserve, cancel_request, take, put and expired reservations, the amount physically present (what `remaining` accounting plus outstanding reservations imply) equals the unreserved amount plus the sum of the outstanding reservations, all of these are non-negative, and a call that is refused or raises leaves every amount unchanged.", "quantifier": "every capacity, every initial level, every finite sequence of operations by any requesters with any amounts, in any order of success and failure", "why_tests_cant": "Conservation is about all histories; a test runs a handful of call sequences and cannot exclude a sequence of take/cancel/expire that leaks or duplicates stock.", "anchors": ["src/upstage_des/resources/reserve.py: ReserveContainer.reserve, cancel_request, take, put, _expire_request"]}
{"id": "C02", "title": "A granted reservation is always honoured", "statement": "If `reserve(requester, q)` returned True then, whatever other requesters do in the meantime, `take(requester)` succeeds and hands out exactly q, as long as the requester itself did not take, cancel or let the reservation expire; and reserve is granted exactly when the unreserved amount covers the request and the requester holds no reservation yet (otherwise it returns False and changes nothing).", "quantifier": "every reachable container and every interleaving of other requesters' calls between the reserve and the take", "why_tests_cant": "The interleavings of other requesters are unbounded; testing samples a few.", "anchors": ["src/upstage_des/resources/reserve.py: ReserveContainer.reserve, take"]}
{"id": "C03", "title": "ReserveContainer capacity", "statement": "The stock in a ReserveContainer never exceeds its capacity, whatever sequence of reservations, deposits, cancellations and withdrawals is made.", "quantifier": "every operation sequence", "why_tests_cant": "A violation needs a particular interleaving (reserve, deposit into the apparent free space, then cancel).", "anchors": ["src/upstage_des/resources/reserve.py: ReserveContainer.put, cancel_request"]}
{"id": "C04", "title": "Reservation expiry only cancels its own reservation", "statement": "A reservation made with an expiration is cancelled at that time if it is still outstanding, and an expiration timer never affects any reservation other than the one it was created for.", "quantifier": "every history of timed and untimed reservations, takes, cancellations and clock advances", "why_tests_cant": "Depends on the order of timers relative to later calls by the same requester.", "anchors": ["src/upstage_des/resources/reserve.py: ReserveContainer._expire_request, reserve"]}
{"id": "C05", "title": "SortedFilterStore returns the best matching item", "statement": "A get with filter f and sort key k on a store returns an item that satisfies f and whose key is minimal (maximal when reverse=True) among all stored items satisfying f, the earliest-stored such item on ties; the item is removed, every other item stays in its order; and if no stored item satisfies f the request waits and the store is unchanged.", "quantifier": "every store content, filter, key function and direction", "why_tests_cant": "Quantifies over all contents and all user-supplied callables, including falsy items and ties.", "anchors": ["src/upstage_des/resources/sorted.py: SortedFilterStore._do_get, SortedFilterGet"]}
{"id": "C06", "title": "Store monitoring log is faithful", "statement": "The quantity log of a monitored store or container is ordered in time, never repeats an entry consecutively (stores: never a value; containers: never the same time and level), its last entry is always the current quantity, and looking up the log at any past time gives exactly the quantity the resource held at that time (for a ContinuousContainer: the level is the linear interpolation between recorded entries).", "quantifier": "every sequence of puts and gets at arbitrary non-decreasing times, including refused ones, and every query time", "why_tests_cant": "Needs every history; the de-duplication rule could drop an entry only in rare sequences.", "anchors": ["src/upstage_des/resources/monitoring.py: SelfMonitoringStore._record, SelfMonitoringContainer._record, SelfMonitoringFilterStore, SelfMonitoringReserveContainer"]}
{"id": "C07", "title": "ContinuousContainer level is the integral of the active rates", "statement": "For a container created with an initial level within its capacity, the level reported at any time equals the initial level plus, for every user, its signed rate multiplied by how long it has been connected; the result does not depend on when or how often the level was read, nor on the order of adding and removing users.", "quantifier": "every schedule of connecting and disconnecting putters and getters with any rates at any times, and any set of reads", "why_tests_cant": "Continuous quantity over arbitrary real schedules; tests check a few fixed schedules.", "anchors": ["src/upstage_des/resources/container.py: ContinuousContainer._set_level, _add_rate, add_user, remove_user, level"]}
{"id": "C08", "title": "ContinuousContainer stays within [0, capacity]", "statement": "For a container created with an initial level within [0, capacity], and while no user ignores the empty/full signal, the level of a ContinuousContainer never goes below zero nor above its capacity: the empty/full notification fires exactly at the time the level reaches the bound, not before and not after, and rate changes always re-plan it.", "quantifier": "every schedule of users, with any rates, and every time up to the notification", "why_tests_cant": "The critical instant is determined by arbitrary rate combinations.", "anchors": ["src/upstage_des/resources/container.py: ContinuousContainer._check, _check_empty, _check_full, _add_rate, time_until_level, time_until_done"]}
{"id": "C09", "title": "ContinuousContainer rate bookkeeping", "statement": "The net rate always equals the sum of the signed rates of the users currently connected, and when the last user disconnects (by finishing, cancelling, or being stopped at empty/full) the net rate is zero and the level stays constant. A user that asked for a time connects at the instant it was asked for, stays connected no longer than that time, and is disconnected earlier only by a cancellation or by being told that the container is empty or full.", "quantifier": "every sequence of connects and disconnects", "why_tests_cant": "A leak of one rate after cancellation only shows on particular histories.", "anchors": ["src/upstage_des/resources/container.py: ContinuousContainer.add_user, remove_user, _add_rate, _ContinuousEvent._run, cancel"]}
{"id": "C10", "title": "One task at a time drives a state", "statement": "While a task has a (non-shared) active state activated on an actor, no other task can activate or deactivate it: the attempt raises and the owning task's activation is untouched; after the owner deactivates, any task may activate it.", "quantifier": "every sequence of activate/deactivate/deactivate-all calls by any tasks on any states of an actor", "why_tests_cant": "Exclusion over all interleavings of tasks.", "anchors": ["src/upstage_des/actor.py: Actor._lock_state, _unlock_state, activate_state, deactivate_state, deactivate_all_states"]}
{"id": "C11", "title": "LinearChangingState reads are observation-independent", "statement": "A LinearChangingState activated at time t0 with value v0 and rate r reads v0 + r*(t - t0) at every t until deactivated, no matter how many reads happen at which times before; after deactivation it stays constant at the value it had at that moment.", "quantifier": "every rate, start value, and every finite sequence of read times, activations and deactivations", "why_tests_cant": "Read-count independence ranges over all read schedules.", "anchors": ["src/upstage_des/states.py: LinearChangingState._active, ActiveState.__get__, activate, deactivate"]}
{"id": "C12", "title": "Assigning to an active LinearChangingState", "statement": "Assigning value x to a LinearChangingState at time t while it is active makes it read x + r*(t' - t) at any later time t'.", "quantifier": "every schedule of reads, assignments and (de)activations", "why_tests_cant": "The answer depends on whether a read happened just before the assignment.", "anchors": ["src/upstage_des/states.py: LinearChangingState._active, State.__set__"]}
{"id": "C13", "title": "SharedLinearChangingState sums all tasks' rates", "statement": "When several tasks activate the same SharedLinearChangingState, its value at any time is the start value plus the sum over tasks of rate times the time each was active, regardless of reads and of the order of activation and deactivation; a task deactivating stops only its own contribution.", "quantifier": "every set of tasks, rates, activation and deactivation times and read times", "why_tests_cant": "Unbounded number of overlapping tasks and orders.", "anchors": ["src/upstage_des/state_sharing.py: SharedLinearChangingState"]}
{"id": "C14", "title": "Recorded state history is faithful", "statement": "For a recording state the history is ordered in time, its last recorded value always equals the current value, without record_duplicates no two consecutive entries are equal as (time, value), and the history determines the value of the state at every past time.", "quantifier": "every sequence of assignments at non-decreasing times, with or without record_duplicates", "why_tests_cant": "Histories are unbounded.", "anchors": ["src/upstage_des/states.py: State.__set__, State._do_record"]}
{"id": "C15", "title": "Frozen states keep their first value", "statement": "Once a frozen state has been given a value, every later assignment raises and the state keeps its first value.", "quantifier": "every sequence of assignments, including None values", "why_tests_cant": "Corner values such as None in arbitrary sequences.", "anchors": ["src/upstage_des/states.py: State.__set__"]}
{"id": "C16", "title": "Type-checked states never hold a wrongly typed value", "statement": "A state declared with valid types never holds (nor records) a value of another type: a wrongly typed assignment raises and leaves value, history, callbacks and nucleus notification untouched. The same holds item-wise for dictionary and dataclass states.", "quantifier": "every sequence of assignments of well- and ill-typed values and keys", "why_tests_cant": "Needs all sequences, including the state after a rejected write.", "anchors": ["src/upstage_des/states.py: State._type_check, State.__set__, DictionaryState, DataclassState", "src/upstage_des/state_proxies.py: _DictionaryProxy.__setitem__, _DataclassProxy.__setattr__"]}
{"id": "C17", "title": "Mimic states track their source exactly while active", "statement": "While an actor mimics another actor's state, reading it gives the source's current value; when the mimic is deactivated it keeps the last value read from the source; ending one task's mimics never ends another task's mimics, and no task can deactivate a mimic another task started.", "quantifier": "every interleaving of source changes, reads, mimic activations and deactivations by several tasks", "why_tests_cant": "Interleavings of several tasks and reads.", "anchors": ["src/upstage_des/actor.py: activate_mimic_state, deactivate_mimic_state, deactivate_all_mimic_states", "src/upstage_des/states.py: State.__get__"]}
{"id": "C18", "title": "Waypoint motion follows the path at the given speed", "statement": "A location state activated with a speed and waypoints is, at elapsed time e, on the polyline at path length speed*e from the start; it arrives at the k-th waypoint after exactly the sum of the first k leg lengths divided by speed; the remaining waypoints reported are exactly those not yet reached; reads do not change the motion.", "quantifier": "every start, non-empty waypoint list, positive speed and elapsed time up to the total time, and any earlier reads", "why_tests_cant": "Infinitely many paths and times; boundary instants at waypoints.", "anchors": ["src/upstage_des/states.py: CartesianLocationChangingState._setup, _get_index, _get_remaining_waypoints, _active"]}
{"id": "C19", "title": "Actor knowledge behaves as a guarded map", "statement": "Knowledge behaves as a finite map: get returns the last set value, setting an existing name without overwrite raises and changes nothing, clearing a missing name raises and changes nothing, must_exist gets of missing names raise, get-and-clear returns and removes, and operations on one name never affect another.", "quantifier": "every sequence of knowledge operations on any names", "why_tests_cant": "Refinement over all histories.", "anchors": ["src/upstage_des/actor.py: get_knowledge, get_and_clear_knowledge, set_knowledge, clear_knowledge, _log_caller"]}
{"id": "C20", "title": "Bulk knowledge operations", "statement": "A bulk set/clear/get-and-clear has the effect of performing all its single operations; if any of them is not allowed it raises and the knowledge is unchanged.", "quantifier": "every knowledge content and every bulk argument", "why_tests_cant": "All-or-nothing behaviour depends on where in the argument the offending name is.", "anchors": ["src/upstage_des/actor.py: set_bulk_knowledge, clear_bulk_knowledge, get_and_clear_bulk_knowledge, get_bulk_knowledge"]}
{"id": "C21", "title": "Knowledge events release their waiter once", "statement": "succeed_knowledge_event triggers the event stored under that name with the supplied data and removes it from knowledge, so the same name cannot be triggered twice; creating an event under an existing name raises.", "quantifier": "every sequence of create, succeed, clear and interruption cleanup", "why_tests_cant": "Sequences across tasks.", "anchors": ["src/upstage_des/actor.py: create_knowledge_event, succeed_knowledge_event", "src/upstage_des/task.py: Task._handle_interruption"]}
{"id": "C22", "title": "Task network execution order", "statement": "A running task network executes the head of the task queue when there is one, otherwise the default next task of the task just finished; each queued task is consumed exactly once, in order; it stops only with an error when there is neither, or at a terminal task.", "quantifier": "every network description, every initial queue, and every sequence of queue edits made by the executing tasks", "why_tests_cant": "Unbounded executions with user tasks editing the queue.", "anchors": ["src/upstage_des/task_network.py: TaskNetwork.loop, _next_task_name", "src/upstage_des/actor.py: set_task_queue, get_next_task, _clear_task, _begin_next_task, clear_task_queue"]}
{"id": "C23", "title": "Queue edits are safe", "statement": "set_task_queue is refused while tasks are pending, clear_task_queue empties it, adding a network under an existing name raises, and no operation on one network's queue affects the queue of another.", "quantifier": "every sequence of queue and network operations on an actor", "why_tests_cant": "All histories of calls.", "anchors": ["src/upstage_des/actor.py: add_task_network, set_task_queue, clear_task_queue, get_task_queue, get_next_task, delete_task_network"]}
{"id": "C24", "title": "Suggested network names are free", "statement": "suggest_network_name always terminates with a name that is not in use by any network of the actor, and returns the factory's own name when that is free.", "quantifier": "every set of existing network names, including adversarially numbered ones", "why_tests_cant": "The set of used names is unbounded.", "anchors": ["src/upstage_des/actor.py: suggest_network_name"]}
{"id": "C25", "title": "Network factories build the documented graphs", "statement": "single_looping, single_terminating, ordered_terminating and ordered_loop factories, run from their starting task with no queue edits, execute exactly the documented sequence of tasks: forever the same task; one then terminal; the given list in order then terminal; the given list cyclically.", "quantifier": "every list of distinct tasks of any length and any number of steps", "why_tests_cant": "Unbounded list lengths and step counts.", "anchors": ["src/upstage_des/task_network.py: TaskNetworkFactory.from_single_looping, from_single_terminating, from_ordered_terminating, from_ordered_loop"]}
{"id": "C26", "title": "Interruption handling leaves no dangling activity", "statement": "When a task is interrupted and its on_interrupt answers END or RESTART, every active state it drives is deactivated, the event it waited for is cancelled and removed from knowledge if stored there, the task then ends (END) or starts afresh (RESTART); when it answers IGNORE, nothing changes and the task keeps waiting for the very same event; any other answer raises.", "quantifier": "every task program, every interrupt at any point of its execution, any number of interrupts", "why_tests_cant": "Interrupt timing relative to the task's progress is unbounded.", "anchors": ["src/upstage_des/task.py: Task._handle_interruption, Task.run, InterruptStates"]}
{"id": "C27", "title": "Tasks and routines resume with the awaited value", "statement": "A task that yields an event is resumed exactly once with the value of that event, in the order events are yielded; a routine yielded by a task runs its own events to completion first and the task resumes with the routine's return value.", "quantifier": "every task program and every program of its routines (routines yielding routines are rejected by the code), every sequence of event completions and interrupts", "why_tests_cant": "Unbounded nesting and length.", "anchors": ["src/upstage_des/task.py: Task.run", "src/upstage_des/routines.py: Routine"]}
{"id": "C28", "title": "Rehearsal time is the sum of event times and has no side effects", "statement": "Rehearsing a task returns an actor whose clock is advanced by exactly the sum of the rehearsal times of the yielded events (or the given duration), Any taking the minimum and All the maximum over members, and the real environment, the original actor's states, knowledge and task queue are unchanged afterwards.", "quantifier": "every task program, any nesting of multi-events", "why_tests_cant": "All programs and all states of the actor.", "anchors": ["src/upstage_des/task.py: Task.rehearse", "src/upstage_des/events.py: BaseEvent.rehearse, MultiEvent.rehearse, Any.aggregation_function, All.aggregation_function, Wait, Get", "src/upstage_des/base.py: MockEnvironment"]}
{"id": "C29", "title": "Network rehearsal is feasible, ordered and isolated", "statement": "rehearse_network runs exactly the listed tasks in order on a clone, raises when a consecutive pair is not allowed by the network, and leaves the original actor's queue and the network's own position unchanged.", "quantifier": "every network, task list and actor state", "why_tests_cant": "All graphs and lists, including failure points in the middle.", "anchors": ["src/upstage_des/task_network.py: TaskNetwork.rehearse_network, is_feasible", "src/upstage_des/actor.py: rehearse_network, clone"]}
{"id": "C30", "title": "Clones are independent of their originals", "statement": "A cloned actor starts with equal state values, knowledge and queues, and no subsequent operation on the clone changes anything observable on the original, nor vice versa.", "quantifier": "every actor content and every sequence of operations on either side", "why_tests_cant": "Aliasing bugs appear only for particular operation sequences.", "anchors": ["src/upstage_des/actor.py: Actor.clone", "src/upstage_des/states.py: ResourceState._make_clone"]}
{"id": "C31", "title": "Nucleus interrupts exactly the watching networks", "statement": "Changing a state that is registered with an actor's nucleus interrupts exactly the networks registered for that state (each once, with the state's name and new value), changing any other state interrupts none; removing a network stops its notifications and leaves those of the other networks untouched.", "quantifier": "every sequence of add_network, remove_network and state changes", "why_tests_cant": "Two mutually inverse maps must stay consistent over all histories.", "anchors": ["src/upstage_des/nucleus.py: TaskNetworkNucleus.add_network, remove_network, send_change", "src/upstage_des/states.py: State._broadcast_change"]}
{"id": "C32", "title": "Decision and terminal tasks", "statement": "A DecisionTask consumes no simulation time and is never interruptible into a state change; a TerminalTask, once reached, never hands control to another task: any interrupt or completion of it raises.", "quantifier": "every network and every interrupt schedule", "why_tests_cant": "All schedules.", "anchors": ["src/upstage_des/task.py: DecisionTask, TerminalTask"]}
{"id": "C33", "title": "Message attempts obey the retry policy", "statement": "A transmission attempt over a link succeeds as soon as the link is not degraded/blocked at one of its retry instants (the first check is immediate, then every retry rate), and gives up exactly after the retry budget implied by the maximum retry time is used; a message that succeeds arrives after the configured delay.", "quantifier": "every retry configuration and every behaviour of the link over time", "why_tests_cant": "The link's up/down history is an arbitrary function of time.", "anchors": ["src/upstage_des/communications/comms.py: CommsManagerBase._attempt, _link_compare, test_if_link_is_blocked"]}
{"id": "C34", "title": "Link degradation applies to exactly the configured links", "statement": "A message from a to b is held up by degradation exactly when the manager-wide flag is set, or a or b is a listed node, or the directed link (a,b) is listed; degrading (a,b) does not hold up messages from b to a.", "quantifier": "every configuration of degraded/blocked links and nodes and every pair", "why_tests_cant": "All configurations.", "anchors": ["src/upstage_des/communications/comms.py: CommsManagerBase._link_compare"]}
{"id": "C35", "title": "Each message is delivered at most once and in full", "statement": "Every message sent through a comms manager is put into the receiving actor's store of the right mode at most once; with a point-to-point manager it is exactly once when the link admits it within the retry budget and never otherwise, with messages unaltered.", "quantifier": "every sequence of messages and link behaviours", "why_tests_cant": "Unbounded message sequences.", "anchors": ["src/upstage_des/communications/comms.py: run, _do_transmit, make_put, store_from_actor", "src/upstage_des/communications/processes.py"]}
{"id": "C36", "title": "Routing finds shortest available paths", "statement": "The routing table's next hop lies on a shortest path (fewest hops) from the current node to the destination in the network without the ignored nodes, and routing reports no route exactly when the destination is unreachable without them.", "quantifier": "every directed network, source, destination and set of ignored nodes", "why_tests_cant": "All graphs.", "anchors": ["src/upstage_des/communications/routing.py: _shortest_path, RoutingTable.select_hop, connect_nodes"]}
{"id": "C37", "title": "Routed messages terminate", "statement": "A message sent through the routing manager always ends up either delivered or dropped: if the final link stays blocked the message is eventually dropped; it never visits a node that refused it again, and is delivered whenever a route whose links all work exists.", "quantifier": "every network and every pattern of link failures", "why_tests_cant": "Termination over all graphs and failure patterns.", "anchors": ["src/upstage_des/communications/routing.py: RoutingCommsManager._do_transmit, select_hop"]}
{"id": "C38", "title": "Event objects trigger once per arming", "statement": "An upstage Event delivers, to every waiter of an arming, the payload of the first succeed; a second succeed before the event is re-armed raises and alters nothing; after reset it can be used again; cancelling un-triggers nothing that already happened. Waiters are resumed in the order in which they yielded. Yielding on an event that is over arms it again if it was made with auto_reset and raises otherwise.", "quantifier": "every sequence of yields, succeeds, cancels, resets and kernel processing steps", "why_tests_cant": "Depends on the interleaving of the kernel's processing step with succeed calls.", "anchors": ["src/upstage_des/events.py: Event.succeed, as_event, cancel, reset"]}
{"id": "C39", "title": "Interrupted requests lose nothing", "statement": "If a task waiting on a Get (or FilterGet) is interrupted and the request is cancelled, then every item put into the store is afterwards either still in the store or has been delivered to some task: no item is lost; likewise a cancelled Put never inserts its item later.", "quantifier": "every interleaving of puts, gets, cancellations and kernel steps", "why_tests_cant": "Loss happens only in the window between trigger and processing.", "anchors": ["src/upstage_des/events.py: BaseRequestEvent.cancel, Get, Put, FilterGet"]}
{"id": "C40", "title": "ResourceHold stages", "statement": "A ResourceHold acquires then releases its resource exactly once, in that order; releasing before the request was granted raises; a cancelled pending request never occupies the resource; so the number of occupied slots equals the number of holds between acquire and release.", "quantifier": "every sequence of operations on any number of holds", "why_tests_cant": "All interleavings.", "anchors": ["src/upstage_des/events.py: ResourceHold"]}
{"id": "C41", "title": "WindowedGet collects in order and returns what it took", "statement": "A WindowedGet returns the items it obtained in the order received once its window ends; when it is cancelled every obtained item is put back into the store in that order, so the store's contents are conserved.", "quantifier": "every arrival schedule and cancel instant", "why_tests_cant": "Arrival schedules are unbounded.", "anchors": ["src/upstage_des/routines.py: WindowedGet"]}
{"id": "C42", "title": "Stepped motion notifications alternate and match visibility", "statement": "For each sensor/target pair the entered and exited notifications alternate starting with entered, and after each check of a pair the sensor's last notification says 'entered' exactly when the target is currently detectable and within range.", "quantifier": "every motion of all parties, every sequence of checks, detectability changes and additions", "why_tests_cant": "Any trajectories and any number of steps.", "anchors": ["src/upstage_des/motion/stepped_motion.py: _update_awareness, _run_detectable, _mover_not_detectable, _mover_became_detectable"]}
{"id": "C43", "title": "Sensor motion notifications alternate and are timely", "statement": "With the SensorMotionManager each sensor is told of a mover's entry exactly when it enters and of its exit exactly when it leaves (or stops being detectable), alternately, with the event time equal to the start time plus the travel time to the crossing point along the waypoint path.", "quantifier": "every waypoint path, speed, sensor position and radius, and any stop in the middle", "why_tests_cant": "All geometries and schedules; multi-leg paths that miss the sensor on some legs.", "anchors": ["src/upstage_des/motion/motion.py: SensorMotionManager._process_mover_sensor_pair, _schedule, _notify, _stop_mover, _add_to_view, _remove_from_view"]}
{"id": "C44", "title": "Cartesian crossing times are exact", "statement": "For straight-line motion and a spherical sensor, the reported crossing times bound exactly the set of times at which the mover is within the radius: between the two reported times it is inside, outside them it is not, and no crossing is reported exactly when it is never inside on that leg.", "quantifier": "every start, finish, speed, centre and radius with non-degenerate geometry, over real arithmetic", "why_tests_cant": "A continuum of geometries.", "anchors": ["src/upstage_des/motion/cartesian_model.py: ray_intersection, cartesian_linear_intersection", "src/upstage_des/math_utils.py: _roots"]}
{"id": "C45", "title": "Sampled crossing detection is well formed", "statement": "The crossing list of a sampled great-circle path starts with the start condition, ends with the end condition, and in between ENTER and EXIT alternate consistently with them, each naming the adjacent pair of samples where the in/out status flips; there are exactly as many as there are flips.", "quantifier": "every sequence of samples and every in/out status", "why_tests_cant": "All sample sequences.", "anchors": ["src/upstage_des/geography/intersections.py: find_crossing_points, _split_down, get_intersection_locations"]}
{"id": "C46", "title": "Contexts nest and restore", "statement": "Entering an EnvironmentContext gives a fresh environment, actor list, entity groups and stage; leaving it, normally or by exception, restores exactly what was visible before, for any nesting; variables set inside are not visible outside.", "quantifier": "every nesting and sequence of entries, exits and modifications", "why_tests_cant": "Arbitrary nesting depth.", "anchors": ["src/upstage_des/base.py: EnvironmentContext, UpstageBase"]}
{"id": "C47", "title": "Stage variables are write-once", "statement": "A stage variable, once added, reads back the same value for the rest of the context; adding it again raises and changes nothing; reading a missing one raises.", "quantifier": "every sequence of adds and reads", "why_tests_cant": "All histories.", "anchors": ["src/upstage_des/base.py: add_stage_variable, get_stage_variable, DotDict"]}
{"id": "C48", "title": "Unit conversion is consistent", "statement": "Converting from unit a to b and back gives the original value, converting a unit to itself is the identity, alternate names behave like their canonical unit, and unknown or incompatible units raise. The factors are those of the definitions of the units, exactly for times and within one part in a million for lengths.", "quantifier": "every pair of supported unit names and every value", "why_tests_cant": "All values; completeness over the whole table of pairs.", "anchors": ["src/upstage_des/units/convert.py: unit_convert, CONVERSIONS", "src/upstage_des/units/__init__.py"]}
{"id": "C49", "title": "Entity registration", "statement": "Every instance of a named entity class appears exactly once, in creation order, in its class's and each declared ancestor group of the active context; instances created in one context do not appear in another; classes that opt out are not listed.", "quantifier": "every class hierarchy with any groups and every creation sequence", "why_tests_cant": "All hierarchies.", "anchors": ["src/upstage_des/base.py: NamedUpstageEntity.__init_subclass__, _add_to_group, EnvMixin"]}
{"id": "C50", "title": "State histories export to tables without loss", "statement": "The exported data table of an actor's recorded states has, per state, one row for each recorded time and value in time order, with activation markers shown on the row of that time rather than as extra values.", "quantifier": "every recorded history including activation markers", "why_tests_cant": "All histories.", "anchors": ["src/upstage_des/data_utils/data_utils.py: _state_history_to_table, _actor_state_data"]}
{"id": "C51", "title": "Bounded waiting time of Wait", "statement": "A Wait completes exactly its converted timeout after it is first yielded, re-yielding the same Wait (after an ignored interrupt) completes at the original time, and negative timeouts are rejected.", "quantifier": "every timeout, unit and interrupt schedule", "why_tests_cant": "All schedules of ignored interrupts.", "anchors": ["src/upstage_des/events.py: Wait", "src/upstage_des/task.py: Task.run"]}
{"id": "C52", "title": "ContinuousContainer predictions", "statement": "time_until_done (time until the container is full or empty at the present rate) and time_until_level(x) tell the true time: if no user connects or disconnects, the level reaches the named level exactly that much later and not before; None/inf is given exactly when it never does.", "quantifier": "every reachable container state, query time and queried level", "why_tests_cant": "Depends on when the stored level was last refreshed relative to the query.", "anchors": ["src/upstage_des/resources/container.py: ContinuousContainer.time_until_level, time_until_done"]}
{"id": "C53", "title": "State change callbacks and nucleus notifications", "statement": "Every successful assignment to a state calls each callback registered at that moment exactly once, in registration order, with the new value, and notifies the actor's nucleus exactly once, after the value is stored; refused assignments call nothing; an actor with a nucleus never gets a second one.", "quantifier": "every state declaration, every set of callbacks and every sequence of assignments", "why_tests_cant": "All interleavings of registration, removal and assignment.", "anchors": ["src/upstage_des/states.py: State.__set__, _do_callback, _broadcast_change, _add_callback, _remove_callback"]}
{"id": "C54", "title": "Recording functions see only their actor's values", "statement": "The history produced by a recording function of a state is, for each actor, a function of the values that actor's own state was given; what other actors of the class do cannot change it.", "quantifier": "every class of actors with recording functions or recorder objects and every execution", "why_tests_cant": "Depends on what other instances did before.", "anchors": ["src/upstage_des/states.py: State._do_record_funcs, record_functions"]}
{"id": "C55", "title": "Members of a rehearsed multi-event report completion truthfully", "statement": "When an Any or All is rehearsed, a member event reports is_complete afterwards exactly when it would have been complete at the time the multi-event is: its own rehearsal time is not after that of the multi-event.", "quantifier": "every nesting of Any and All over events with any rehearsal times", "why_tests_cant": "All nestings and times; the answer depends on the order in which the rehearsal times compare.", "anchors": ["src/upstage_des/events.py: MultiEvent.rehearse, _start_rehearsal, BaseEvent.is_complete"]}
{"id": "C56", "title": "The sampled crossing search handles every leg", "statement": "For the standard sampling (every 9260 m, refined by 10 and 20) and a detection region whose boundary a leg crosses at most once between samples of different status, the search returns its list of crossings for every leg, however short.", "quantifier": "every distance function with evenly spaced samples and every leg", "why_tests_cant": "Whether the search succeeds depends on the exact length of the leg, of the rough samples and of their refinements; tests use a few long legs.", "anchors": ["src/upstage_des/geography/intersections.py: get_intersection_locations, _preprocess, _split_down"]}
{"id": "C57", "title": "A stepped motion manager checks everything it was given at every time step", "statement": "A SteppedMotionManager in use checks every sensor and every object added to it (or moving) once at each multiple of the time step after it started, with a single loop however often it is started; it stops only after max_empty_events steps in a row with nothing else scheduled and goes on when something moves again; and changing the detectability of an object never fails.", "quantifier": "every sequence of additions, starts and stops of movements, detectability changes and time steps", "why_tests_cant": "Unbounded interleavings; the failures need a stop, a pause or a change at particular moments.", "anchors": ["src/upstage_des/motion/stepped_motion.py: run, _run_detectable, _start_mover, _stop_mover, add_detectable, _mover_became_detectable", "src/upstage_des/states.py: DetectabilityState.__set__"]}
{"id": "C58", "title": "Nobody waits for what is there", "statement": "When everything due at the current time has been processed: no task waits at a store for an item that is in it (for filter stores: an item its filter accepts) nor to put one into a store that has room; and the oldest get waiting at a container asks for more than its level, the oldest put for more than its free space. Finitely many kernel steps lead there without the clock moving.", "quantifier": "every store and container, every sequence of puts, gets, interrupts and kernel steps", "why_tests_cant": "A missed wake-up needs one particular interleaving of waiting requests, interrupts and processed events, and shows only as a task that is never resumed.", "anchors": ["src/upstage_des/resources/monitoring.py: SelfMonitoringStore, SelfMonitoringFilterStore, SelfMonitoringContainer", "src/upstage_des/resources/sorted.py: SortedFilterStore._do_get", "src/upstage_des/events.py: BaseRequestEvent.cancel, Put, Get, FilterGet"]}
{"id": "C59", "title": "Stores and containers respect their capacity", "statement": "A store never holds more items than its capacity, and a put enters at once when there is room and no other put waits, else waits; the level of a container stays between zero and its capacity.", "quantifier": "every store and container, every sequence of puts, gets, interrupts and kernel steps", "why_tests_cant": "Unbounded interleavings of requests, interrupts and kernel steps.", "anchors": ["src/upstage_des/resources/monitoring.py: SelfMonitoringStore._do_put, SelfMonitoringFilterStore._do_put, SelfMonitoringContainer._do_put, _do_get", "src/upstage_des/resources/sorted.py: SortedFilterStore"]}
{"id": "C60", "title": "Distances, bearings and destinations on the spherical earth fit together", "statement": "With the spherical earth model, distance is the length of the great-circle arc between two places in the unit asked for, and hence a metric; bearing is the initial direction of that arc, clockwise from north, in [0, 360); point_from_bearing_dist leads to the place at the given distance in the given direction, so that going the distance along the bearing to a target reaches it, going a part of the distance leaves the rest, and the destination is seen at the bearing asked for; point_along agrees with it.", "quantifier": "all pairs of points, bearings, distances, parts and units", "why_tests_cant": "A statement about trigonometric functions of real arguments; tests compare a few cities.", "anchors": ["src/upstage_des/geography/spherical.py: Spherical.distance, bearing, distance_and_bearing, point_from_bearing_dist, point_along"]}
{"id": "C61", "title": "Sampled circles and paths on the spherical earth lie where they should", "statement": "geo_circle returns a closed polygon of the asked number of sides whose corners are all at the given distance from the centre, at evenly spaced bearings; geo_linspace returns evenly spaced points of the great-circle arc from the start to the finish; lla2ecef and ecef2lla are the cartesian coordinates of a place and its altitude, and inverse to each other.", "quantifier": "all centres, radii, pairs of points, altitudes and numbers of points", "why_tests_cant": "Trigonometry on all inputs, with branches for special positions.", "anchors": ["src/upstage_des/geography/spherical.py: Spherical.geo_circle, geo_linspace, ecef_linspace, ecef_and_geo_linspace, lla2ecef, ecef2lla"]}
{"id": "C62", "title": "Cross-track distance and point are those of the nearest point of the great circle", "statement": "cross_track_distance is the smallest distance from the point to the great circle through origin and destination, and cross_track_point is a point of that circle at that distance.", "quantifier": "all origins, destinations and points", "why_tests_cant": "A minimum over infinitely many points; tests check a few numbers.", "anchors": ["src/upstage_des/geography/spherical.py: Spherical.cross_track_distance, cross_track_point"]}
{"id": "C63", "title": "The analytical great-circle crossing is exact", "statement": "analytical_intersection reports the places, times and kinds of the crossings of a great-circle leg with a sensor's range on the spherical earth: a mover at constant speed on the leg is in range exactly from the first reported time to the second, it is at the reported places then, START_INSIDE and END_INSIDE say that the ends are inside, and nothing is reported only for legs that never come inside.", "quantifier": "all legs, sensors, radii, speeds, units and altitudes", "why_tests_cant": "A statement about every moment of a continuous movement; tests compare a few legs with the sampled search.", "anchors": ["src/upstage_des/motion/geodetic_model.py: analytical_intersection", "src/upstage_des/motion/great_circle_calcs.py: get_dist_rad, get_course_rad, get_pos_from_points_and_distance, get_great_circle_points"]}
{"id": "C64", "title": "Locations are values", "statement": "The coordinates of a location cannot be changed once it is made; == is an equivalence relation that holds exactly for the same place, and equal locations have equal hashes; copies, conversions between degrees and radians and locations made from location data equal the original; distances (-, dist_with_altitude, straight_line_distance) are symmetric, satisfy the triangle inequality and are zero exactly for the same place; a location can be unpacked into its coordinates.", "quantifier": "all locations, units and sequences of attribute operations", "why_tests_cant": "Universal algebraic laws over real coordinates; tests compare a few points.", "anchors": ["src/upstage_des/data_types.py: Location.__setattr__, CartesianLocation, GeodeticLocation, CartesianLocationData, GeodeticLocationData"]}
{"id": "C65", "title": "A task waiting for several events goes on when it should and leaves nothing behind", "statement": "A task that waits for Any (All) of some events, nested at will, goes on in the instant in which the first (the last) of them occurs and not otherwise; is_complete then tells which members have occurred. An interrupt that ends or restarts the task withdraws the members that have not occurred, touches nothing else and never fails.", "quantifier": "all nestings of Any and All over Waits, requests, Events and processes, all tasks, all sequences of happenings, interrupts and kernel steps", "why_tests_cant": "Unbounded nesting and interleaving; the failures need an interrupt at a particular moment or a particular sharing of events.", "anchors": ["src/upstage_des/events.py: MultiEvent.as_event, MultiEvent.cancel, Any, All, Wait.cancel, BaseRequestEvent.cancel, Event.cancel, BaseEvent.is_complete", "src/upstage_des/task.py: Task.run, _handle_interruption"]}
{"id": "C66", "title": "Actors are built as they are declared", "statement": "Making an actor succeeds exactly if every argument is a state of its class that may be given and takes the value, every other state has a default and no names clash; the actor then holds in every state what was given, or what the class declares as default: dictionaries become new resources of the asked kind with the asked arguments over the default ones, tables become new tables of resources, communication stores have the asked modes. What was made for a state is in no other state of any actor, stays there for ever, and nothing of the caller's or of other actors changes. The same program makes the same actors.", "quantifier": "all classes of actors, arguments, sequences of operations before and after, and orders in which Python walks through sets", "why_tests_cant": "Unbounded combinations of kinds of states, arguments and defaults, sharing between actors, and orders of sets that tests do not control.", "anchors": ["src/upstage_des/actor.py: Actor.__init_states, __actual_init__, __init_subclass__", "src/upstage_des/states.py: State.__init__, __set__, _set_default, has_default, ResourceState.__set__, CommunicationStore.__set__, MultiStoreState.__set__, DictionaryState.__set__"]}
{"id": "C67", "title": "Running tasks are reported and interrupted as they are", "statement": "get_running_task and get_running_tasks name, for each network, the task that is running on it and its process, and nothing if none was begun; a network runs one task at a time. interrupt_network reaches that task: its on_interrupt is asked once, with the given cause, at the time of the call, interrupts in the order in which they were issued; other networks are not touched. The default on_interrupt answers what the last set_marker of that very task said, END without one; get_marker and get_marker_time give its name and time. END ends the task, RESTART begins it again, IGNORE changes nothing.", "quantifier": "all actors, networks, tasks, decisions and sequences of calls and kernel steps, interrupts from anywhere at any moment", "why_tests_cant": "The failures need a call at a particular moment (between the end of a task and the next, during a decision, during the cleaning up after another interrupt), and ordering is over unbounded histories.", "anchors": ["src/upstage_des/actor.py: Actor.get_running_task, get_running_tasks, interrupt_network, start_network_loop", "src/upstage_des/task_network.py: TaskNetwork.loop", "src/upstage_des/task.py: Task.run, set_marker, get_marker, get_marker_time, clear_marker, on_interrupt, DecisionTask.run, run_skip, TerminalTask"]}
{"id": "C68", "title": "Logs and their time stamps tell what was logged and when", "statement": "get_log and log() give exactly the messages that were logged while the actor's debug logging was on, in order, each with the time at which it was logged; a clone starts with the log of the original, and from then on neither changes the other's. A message has a time stamp exactly if debug_log_time (or the stage's) asks for it, and the stamp is right: day, hour, minute and second for times in seconds, minutes and hours, otherwise the time to a thousandth of the unit, with the day if daily_time_count is set. Stamps and times never decrease in a log.", "quantifier": "all times, units, stage variables, sequences of actors, clones, messages and steps of the clock", "why_tests_cant": "Unbounded histories and all rational times; rounding failures need particular times.", "anchors": ["src/upstage_des/base.py: UpstageBase.pretty_now, MockEnvironment", "src/upstage_des/actor.py: Actor.log, get_log, clone"]}
{"id": "C69", "title": "Listeners pass every message to their callback", "statement": "A process made by generate_comms_wait calls its callback with the content of every message that its store gets, once, in the order of the messages, at the time at which the store got it; several such processes on one store share the messages, each message going to exactly one; nothing is lost and no sender waits while somebody listens. What was given to make_put is what the callback gets. A listener that is stopped takes no further message.", "quantifier": "all stores (limited or not), numbers of listeners, messages and kinds of objects, behaviours of callbacks (including further puts and exceptions), orders of events in an instant, stops at any moment", "why_tests_cant": "Unbounded interleavings of senders, listeners and the kernel's processing of granted requests; the loss needs a stop at some moment and a later message.", "anchors": ["src/upstage_des/communications/processes.py: generate_comms_wait", "src/upstage_des/communications/comms.py: CommsManagerBase.clean_message, make_put"]}
{"id": "C70", "title": "WGS84 cartesian coordinates are those of the ellipsoid, both ways", "statement": "lla2ecef puts a latitude and a longitude at altitude zero on the WGS84 ellipsoid, where the plane perpendicular to their direction touches it, and an altitude moves straight up from there, so that above the surface the altitude is the distance from the ellipsoid. ecef2lla undoes it exactly: latitude, longitude and altitude come back for all altitudes down to 6200 km below the surface (at the poles with longitude 0), and every position at least 90 km from the centre of the earth is given the latitude, longitude and altitude that lead back to it, within the usual ranges.", "quantifier": "all latitudes, longitudes, altitudes and positions (real numbers)", "why_tests_cant": "A closed formula with cube roots for the root of a quartic over a continuum of positions; tests compare a few numbers.", "anchors": ["src/upstage_des/geography/conversions.py: BaseConversions._lla2ecef, _ecef2lla, lla2ecef, ecef2lla, WGS84Conversions"]}
{"id": "C71", "title": "WGS84 distances, bearings and destinations follow the geodesics of the ellipsoid", "statement": "The distance and bearing that WGS84 gives for two places are the length (to a ninth of a millimetre) and the first direction of a straightest line on the ellipsoid from the one that ends, after no more than half a turn, within a millimetre of the other; the distance does not depend on the direction, is 0 for a place and itself, and bearings are between 0 and 360, 0 northwards and 180 southwards. point_from_bearing_dist gives the place, within a millimetre, where the straightest line with that first direction ends after that distance, and always finds one. geo_linspace gives num_segments+1 such places at equal steps, of which the first and the last are exactly those given; geo_circle gives num_points+1 places in the asked directions and ends where it began.", "quantifier": "all places between the poles, bearings, distances, units, tolerances, numbers of iterations and points (real numbers)", "why_tests_cant": "Truncated series and fixed-point iterations against curves defined by a differential equation, over a continuum; tests compare a few numbers with tables.", "anchors": ["src/upstage_des/geography/wgs84.py: WGS84.distance, bearing, distance_and_bearing, point_from_bearing_dist, geo_linspace, geo_circle, ecef_linspace, ecef_and_geo_linspace"]}
{"id": "C72", "title": "Numerical intersections say where and when a mover on the spherical earth is in range", "statement": "For a leg on the spherical earth, subdivide_intersection reports every stay of the mover within the radius of the sensor: each reported location is where the mover is, on the great circle at the given speed, at the reported time, and there it is in range; START_INSIDE and END_INSIDE are the ends of the leg; within 47 m of travel before an ENTER and after an EXIT the mover is out of range, and on a level leg at exactly the radius. The kinds alternate as the changes of status along the leg do. A stay that is never reported does not exist.", "quantifier": "all legs up to 6 m short of half the circumference, altitudes, speeds, units, sensors and radii (real numbers)", "why_tests_cant": "A continuum of legs and a search by sampling: whether a range is noticed depends on where the samples fall, and tests choose ranges that are much larger than the spacing.", "anchors": ["src/upstage_des/motion/geodetic_model.py: subdivide_intersection, _to_tuple", "src/upstage_des/geography/intersections.py: get_intersection_locations"]}
{"id": "C73", "title": "The debug log tells the way of every message", "statement": "With debug_logging on and a positive retry rate, the entries of a transmission in debug_log are its way and nothing else. Point to point: one 'Can't send, waiting' for each vain check of the link, one retry rate apart from the start on; then 'Sent message' the sending time after the first check that succeeds, or 'Stopped trying to send' once the budget is used. Routed: attempts that follow one another in place and time, each with its vain checks and then 'Stopped trying to send' or 'Moved message'; at the end 'Destination reached' at the destination or 'No message route available' elsewhere. Each entry is true when it is made and names the message; the log is in the order of time; nothing is noted while logging is off; and logging changes nothing else.", "quantifier": "all managers with a positive retry rate, networks (also changed on the way), link behaviours, messages and interleavings of transmissions", "why_tests_cant": "Unbounded interleavings of transmissions and link histories; a log may be right in every test and still lack the entries of one branch.", "anchors": ["src/upstage_des/communications/comms.py: CommsManagerBase._log_attempt, _attempt, PointToPointCommsManager._do_transmit", "src/upstage_des/communications/routing.py: RoutingCommsManagerBase._do_transmit"]}
{"id": "C74", "title": "Messages carry who sent what to whom, and when", "statement": "make_put makes a message with the given sender and destination, the mode of the manager, the time, and the content: text as the message, a dictionary as the data, a content as it is. All this stays as it is until the message is read. When it is received, time_sent is the time it left the sender's side (after retries and the sending time) and time_received the time it arrived; neither changes afterwards.", "quantifier": "all contents, managers, networks, link behaviours and interleavings", "why_tests_cant": "Messages are mutable objects shared between the manager and every receiver; tests look at them once, right after a single delivery.", "anchors": ["src/upstage_des/communications/comms.py: Message, MessageContent, CommsManagerBase.make_put, PointToPointCommsManager._do_transmit", "src/upstage_des/communications/routing.py: RoutingCommsManagerBase._do_transmit"]}
{"id": "C75", "title": "Actors on a stage with a motion manager", "statement": "With a SensorMotionManager on the stage, starting and ending the motion of an actor gives the same result as without one. Rehearsals, which move, show and hide clones with clocks of their own, leave no trace in what sensors are told, what they are believed to see, or in the actors. The manager knows exactly the actors that are moving and have not been hidden since. Reading the location of a moving actor at any time gives a place in the range of a sensor exactly if, according to what the sensor is told, the actor was in range at that time.", "quantifier": "all stages, actors with several location states, sensors, paths, sequences of motions, of hiding and showing, rehearsals and interleavings of the manager's processes", "why_tests_cant": "Two mechanisms compute the same motion independently, one from the path when it is read, one from intersections when it starts; tests compare them at a few times on a few paths, without rehearsals in between.", "anchors": ["src/upstage_des/states.py: CartesianLocationChangingState, GeodeticLocationChangingState, DetectabilityState", "src/upstage_des/motion/motion.py: SensorMotionManager", "src/upstage_des/actor.py: Actor.activate_state, deactivate_state, clone"]}
{"id": "C76", "title": "Moving actors and the stepped motion manager", "statement": "With a SteppedMotionManager on the stage, a sensor's last word on a moving actor after a check is 'entered' exactly if the actor is detectable and its location at that time, the one anybody else reads and the one it reaches at its commanded speed, is within the sensor's radius of the sensor's location. An actor that stays in range for one timestep is noticed within it, one that stays out of range is taken as gone within it. Being watched does not change where an actor goes, and a check raises only if reading a location does. Rehearsals do not concern the manager.", "quantifier": "all stages, actors with any number of location states, sensors that move or stand, paths, speeds, radii, sequences of motions, of hiding and showing, rehearsals, and interleavings of the loop of checks with them", "why_tests_cant": "Reading a location during a motion changes what is stored, so each check could disturb the motion it observes; whether an actor is noticed depends on the phase of the loop against the motion, of which tests try a few.", "anchors": ["src/upstage_des/motion/stepped_motion.py: SteppedMotionManager", "src/upstage_des/states.py: CartesianLocationChangingState, GeodeticLocationChangingState, DetectabilityState", "src/upstage_des/actor.py: Actor.activate_state, deactivate_state, _get_matching_state"]}
{"id": "C77", "title": "A rehearsal predicts what happens", "statement": "If nobody else changes the actor, a task that waits for times does in the simulation what it did in a rehearsal begun at that time with that actor: its code reads the same values from the actor and the clock, finds the same events complete, goes on at the same times, raises if the rehearsal raised, and when it is over, at the time at which the rehearsal was, the actor has the values of the understudy from then on. While it waits something is due, and once the rehearsed end is past, the task is over. Other processes may read the actor at any time and do anything among themselves.", "quantifier": "all codes of tasks (any function of what was observed before to the next action), all Waits and nested Any and All of them, times, actors with plain, linear changing and location states, activated or not, routines, all other processes and interleavings of the event queue with ties", "why_tests_cant": "The rehearsal and the execution are two programs: one adds up times, the other goes through SimPy's queue and conditions, with reads by others in between that store values of active states. Planning with rehearsals relies on their agreement for every task, while tests compare single ones.", "anchors": ["src/upstage_des/task.py: Task.rehearse, Task.run", "src/upstage_des/routines.py: Routine.rehearse, _run", "src/upstage_des/events.py: BaseEvent.rehearse, Wait, MultiEvent, Any, All", "src/upstage_des/base.py: MockEnvironment", "src/upstage_des/states.py: LinearChangingState", "src/upstage_des/actor.py: Actor.activate_state, deactivate_state"]}
{"id": "C78", "title": "The rehearsal of a network predicts what its loop does", "statement": "If nobody else changes the actor, a task network that is started after it was rehearsed with a clone of the actor begins the same tasks at the same times as the rehearsal did, each seeing the same values of the actor and the clock, and comes to the end of the rehearsal (the end of the last listed task, or the beginning of the end task) at the time at which the rehearsal was over, with an actor that has the values of the understudy. Decisions that the tasks take, by reading the actor and queueing tasks, are taken as they were rehearsed.", "quantifier": "all networks (any tasks, DecisionTasks, defaults and allowed followers, cycles), codes of tasks, listed tasks or a path to an end task, actors with plain, linear changing or location states, times, all other processes that read, and all orders among simultaneous events", "why_tests_cant": "Users choose among plans by rehearsing networks. That the chosen plan is then what happens has to hold for every network and whatever other processes do meanwhile; tests compare one network with numbers worked out by hand, without other processes.", "anchors": ["src/upstage_des/task_network.py: TaskNetwork.loop, rehearse_network, _next_task_name, is_feasible", "src/upstage_des/actor.py: Actor.set_task_queue, clear_task_queue, get_next_task, _begin_next_task, _clear_task, clone", "src/upstage_des/task.py: Task.rehearse, Task.run, DecisionTask.rehearse, DecisionTask.run"]}
{"id": "C79", "title": "Dictionary and dataclass states are values of their actors", "statement": "The value of a DictionaryState or DataclassState belongs to its actor: what is read through any proxy that `actor.state` ever returned is what was last written to that state of that actor; writing to one state changes no other state of any actor; changing a dictionary after it was given to an actor does not change the actor; a clone has the values of its original at that time and afterwards neither sees the other's writes; and the history of every recorded key holds exactly the initial value and what was written through proxies, with the times.", "quantifier": "all programs that make dictionaries and data objects, build and clone any number of actors from them or from proxies, keep proxies and the objects behind them, and read, write and compare in any order and at any times; all classes of actors and dataclasses", "why_tests_cant": "Sharing shows only when some program keeps a reference and writes later through another one. Whether it happens depends on copies being made in the constructor, in `__set__`, in `clone` and by the proxies, in every combination; tests try a few orders of writes.", "anchors": ["src/upstage_des/state_proxies.py: _DictionaryProxy, _DataclassProxy", "src/upstage_des/states.py: _KeyValueBase, DictionaryState, DataclassState", "src/upstage_des/actor.py: Actor.clone, Actor.__init_states"]}
{"id": "C80", "title": "The order in which a set is gone through makes no difference", "statement": "The library keeps several things in Python sets of strings or objects, whose order differs from one run of the interpreter to the next: the states a task has activated, the networks a nucleus informs, the states an actor still has to fill, the groups of an entity class, the neighbours of a node of a routing table, and the pairs of sensors and objects in view of the motion managers. A simulation with the same seed and the same inputs has the same results whatever these orders are: the same values, histories, groups, answers and exceptions, the same messages delivered over routes of the same length, and every sensor told the same in the same order.", "quantifier": "all pairs of histories of operations that differ only in the orders of the sets, any number of states, tasks, networks, classes, nodes, sensors and movers", "why_tests_cant": "A test runs with the one order that the hashes of its run happen to give, and sets of few elements often come out in the order of insertion; to compare all orders at all moments a proof is needed.", "anchors": ["src/upstage_des/actor.py: Actor.deactivate_all_states, Actor.__init_states", "src/upstage_des/nucleus.py: TaskNetworkNucleus.send_change", "src/upstage_des/base.py: NamedUpstageEntity._add_entity", "src/upstage_des/communications/routing.py: _shortest_path, RoutingTable", "src/upstage_des/motion/motion.py: SensorMotionManager._mover_not_detectable", "src/upstage_des/motion/stepped_motion.py: SteppedMotionManager._mover_not_detectable"]}
{"id": "C81", "title": "Data recorded with a copy is a snapshot", "statement": "record_data(data, copy=True) keeps the data as it is at the moment of the call: whatever the program does afterwards to the object or to anything it refers to, at any depth, with any sharing and cycles, and whatever else is recorded, get_recorded_data shows for that entry the time of the call and the contents the data had then. Only who takes that entry out of the list returned by get_recorded_data, or changes this list, can change it. Without the copy the entry is the object itself and shows its current contents. Entries come in the order of the calls, each with its time; a call whose copy fails raises and records nothing; recording changes nothing the program sees.", "quantifier": "all programs creating, changing, sharing and recording any graph of mutable objects, all depths of looking into an entry, all histories before and after", "why_tests_cant": "A test looks at one shape of data and one later change, usually at the top level; a shallow copy passes it. That no reference to the copy leaks at any depth, after any later recording of overlapping data, needs an invariant over the whole heap.", "anchors": ["src/upstage_des/data_utils/data_recorder.py: DataRecorder.record_data, record_data, get_recorded_data", "src/upstage_des/base.py: UpstageBase.get_recorded"]}
{"id": "C82", "title": "Numerical intersections on the WGS84 ellipsoid", "statement": "With WGS84 as stage model, what subdivide_intersection answers is right: every location it reports is in range of the sensor (straight distance in space), at an altitude of the leg, and within 50 m of the geodesic that leads from the start to the end of the leg, between these; START_INSIDE is the start at time 0, END_INSIDE the end at the travel time, which is the length of the geodesic divided by the speed; within 75 m of an ENTER, earlier on the leg, and of an EXIT, later on it, there is a place out of range; the time reported with a location is that of the travel along a geodesic from the start to it, and a mover on the leg is then at that location. The kinds are those of the changes along places less than 9260 m apart on the leg. A stay in range of 9260 m or more is noticed, a leg entirely in range gives exactly its two ends, a leg entirely out of range is Bad. The function answers for all legs.", "quantifier": "all legs (any latitudes, longitudes and altitudes), speeds, sensors, radii, units of distance and altitude", "why_tests_cant": "The answers come from three nested samplings whose points come from iterative formulas with an error of their own; a test compares one leg with a reference to some digits. That the errors never add up to more than 50 m off the leg, and that every report is in range with a way out close by, is a statement about all legs.", "anchors": ["src/upstage_des/motion/geodetic_model.py: subdivide_intersection, _to_tuple", "src/upstage_des/geography/intersections.py: get_intersection_locations, find_crossing_points, _split_down", "src/upstage_des/geography/wgs84.py: WGS84"]}
