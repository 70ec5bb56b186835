# Formal model of gtri/upstage (`/repo/src/upstage_des`) in Lean 4

## 1. What is here

* `properties.jsonl` – the properties, in API terms.
* `lean/Verif/<Topic>/Model.lean` – the model of the code, function by function, each definition
  citing the file and lines it models and saying where it simplifies.
* `lean/Verif/<Topic>/Lemmas.lean` – helper lemmas (no property is stated there).
* `lean/Verif/<Topic>/Props.lean` – the specification (small, independent of the model's helpers) and
  the property theorems, each followed by an `example` showing a concrete case meeting its hypotheses.
* `MANIFEST.json` – property → theorem names.
* `seeded/LOG.jsonl` – wrong programs tried against the theorems. An empty `theorems_failed` means that the edit survived;
  a `note` says why, or that nothing was tightened. The lines with a `note` near the end were entered late: up to then
  attempts that survived, were meant to be equivalent or to repair the code, or did not compile had been left out.

## 2. Trusted base

* Lean 4.33.0's kernel. Axioms allowed: `propext`, `Classical.choice`, `Quot.sound`, nothing else;
  no `sorry`, no own axioms, no `native_decide`, no `bv_decide`.
* The reading of the Python source: the theorems are about the model. Each definition cites its source.
* Numbers: Python `float`s (times, levels, rates, amounts) are modelled as exact rationals `Rat`
  (geometry: `Real`). Rounding, `nan`, `inf` are not modelled (`inf` appears as `Option`/an explicit
  constructor where code uses it).
* SimPy is not part of the repository; what we assume about it is written in the model files that use
  it: (a) an event is `pending → triggered → processed`, `succeed`/`fail` on a non-pending event raises
  and changes nothing; (b) processing happens in a later kernel step, in trigger order for equal times;
  (c) `Process.interrupt` delivers an exception to the generator at its current yield, before any event
  that becomes processed later; (d) a store's `put`/`get` runs its queues `_put_queue`/`_get_queue`
  in FIFO order, and a triggered `get` has already removed its item; (e) the clock is non-decreasing.
* Python semantics: dicts keep insertion order; exceptions leave the mutations done before them in
  place (this is modelled: a raising operation returns the state *as mutated so far*).

## 3. Plan per property (written before the proofs)

Shapes: INV = invariant by induction over operation lists; REF = refinement to an abstract spec;
LAW = algebraic law; DEC = decision logic; CEX = the code violates the natural statement: negation
proved on a concrete witness and the strongest true part proved as `_partial`.

| id | model | proof |
|----|-------|-------|
| C01 | `Reserve`: level, real level, requester→amount map, ops reserve/cancel/take/put/expire with errors | INV |
| C02 | same, with traces that avoid the requester | INV over interleavings |
| C03 | same | CEX + partial (puts made with nothing reserved) |
| C04 | same plus timers and clock | CEX + partial (no later reservation by the same requester) |
| C05 | `Sorted`: `_do_get` loop over items with filter/key/reverse, truthiness as a parameter | REF to "first arg-min of filtered list"; CEX for falsy items |
| C06 | `Monitoring`: store/container + log | INV, lookup lemma |
| C07 | `Continuous`: level, last-set time, rate, users | INV + closed form integral |
| C08 | same plus planned check time | INV between events; time_until_level CEX |
| C09 | same | INV |
| C10 | `Active`: `_tasks_by_state`, `_states_by_task`, `_active_states`, values, histories | INV/DEC |
| C11 | `Active` | REF to Σ rate·on-time (`accrued`) |
| C12 | same with assignment | CEX + partial (assignment right after a read at the same time); plain states by INV (`Active/Plain`) |
| C13 | `Active` (shared kind) | REF to Σ rate·active time |
| C14 | `Active` for active states, `Rec` for plain states, `KeyVal` for dictionary and dataclass states: `_do_record`, `__set__`, `_record_single` | INV + lookup; CEX for key/value states; reads from the assignments alone (`KeyVal/Reads`) |
| C15 | `Rec` | INV; CEX for None |
| C16 | `Rec`, `KeyVal` proxies | INV; CEX for the dict proxy, dataclass creation, mimic recorder |
| C17 | `Mimic`: mimic map, per-task sets, recorders, chained reads | REF + INV; CEX for deactivate-all and foreign deactivation |
| C18 | `Path`: both location states over the reals, with the slack of `_get_index`, activation, deactivation, assignment | EQ against a polyline given by distances only (`At`); error bound within the slack; CEX for waypoints just reached, empty first legs, starts at a pole and radians; the earth model is a parameter, instantiated with the spherical one of `Globe` (`Globe/Motion`) and with WGS84 (`Geod/Motion`: error bound against a geodesic; CEX of 4 m at the start) |
| C19,C20 | `Know`: the knowledge dictionary and its single and bulk operations | REF to partial map; CEX for bulk atomicity |
| C21 | `Event`: knowledge events over Event objects | INV; CEX for an event cleared without trigger |
| C22–C25 | `Network`: loop as step relation driven by task-body effects | INV over traces; LAW on factories |
| C26,C27,C32 | `TaskRun`: the run loop and interrupt handling as a transition system; the user's code is the environment (op `act`); the actor by `Active` and `Mimic`; `Decision` | INV; values by a trace observer (`Expected`); CEX for routines' values, foreign mimics, second interrupts |
| C28 | `Rehearse`: mock clocks, the rehearsal loop over a script of yields, `Any`/`All`/routines, over the actors of `Clone` | INV over scripts; CEX for failed rehearsals |
| C29 | `Rehearse`: `rehearse_network` | INV over the loop; CEX for end tasks, failures, empty lists |
| C30 | `Clone`: heap of actors, objects and queue lists with references; `clone`, assignments, in-place changes | REF to views + frame; CEX for shared lists, nested objects, resources given as objects |
| C31 | `Nucleus`: the two maps, the networks of the actor and their processes | REF to the relation "watches"; CEX for deleted networks, own processes, ended processes |
| C33–C35 | `Comms`: the manager as a process system; links, nodes and flag change by arbitrary operations; each check and arrival is shown | INV: checks made so far as a closed form (failures every rate, at most N+1); `Settings.lean` folds what was last set from the operations, so that blocked links (`c34_last_set`) and stores (`c35_connected_store`) do not depend on what the model remembers |
| C36 | `Routing`: `_shortest_path`, `select_hop`, `connect_nodes`; any order of the sets | REF: layer invariant of the search, never out of steps; CEX for an ignored destination |
| C37 | `Routing.turn`: the loop of `_do_transmit`, the result of each attempt given by an arbitrary function | well-founded measure (nodes not failed, distance) with global_ignore; CEX for the final link, ping-pong, missed routes |
| C38 | `Event`: upstage Event over a small SimPy event automaton | INV; CEX for payload overwrite; `c38_life`: the answers to `succeed`, `cancel` and `yield` told from the operations alone |
| C39 | `StoreKernel`: simpy store, get queue, triggered events | INV; CEX for the window |
| C40 | `Hold`: `ResourceHold`, `cancel`, rehearsal; SimPy's `Resource` with arbitrary insertion into the queue (priorities), without preemption | INV over operation lists, traces per hold; `Fifo` for the order of grants; CEX for cancelling a granted request and for rehearsed holds |
| C41 | `Windowed`: `WindowedGet.run` and `cancel` step by step on the store of `Store`, with the `AnyOf` condition and the timeout as kernel events and any other users of the store | INV over operation lists (`Inv`, `Run`), identity of requests (`Store/Ids`), conservation from C39; CEX for the instants at which items are lost or the simulation crashes |
| C42 | `Stepped`: the whole manager except the debug log; what sensors see is the environment's, entry callbacks may hide objects | INV (pairs in view = pairs whose last word was "entered"); CEX for callbacks that hide objects |
| C43 | `Queued`: `SensorMotionManager` with its `_notify` processes, any intersection model; `Queued.Cartesian` links it to `Sphere`, `Queued.Geodetic` to `Analytic`, `Queued.Sampled` and `Queued.Stay` to `Subdiv` | INV: the processes of a mover and a sensor are those of the crossings to come (`Trk`), kept by every operation; a state with interrupted processes is simulated by the one in which they have ended (`Restart`, `Sim`); hidden movers have no path and only dead processes (`Unseen`); the scan of the legs yields the maximal intervals in range (`processPair_good`); INV: what waiting processes are to tell comes from a crossing reported for a leg (`From`, `c43_source`), composed with C72 and C82 for the numerical models; a reported stay is told once (`c43_one_stay`); the kinds of any samples pair up (`kindsOf_closed`), so that starting on a leg raises only when the search does; `Accepts`: a path is accepted exactly if its crossings, joined over the ends of legs, are in and out by turns, which they are when the model agrees with itself about the points where legs meet, as the cartesian one does (`Paired`) and, on fair legs, the analytical one (`PairedGeo`); a refused start or sensor is kept (`Refused`); CEX for missed legs, touched ranges, becoming detectable, sensors added twice or at an exit, stop at the start, no legs |
| C44 | `Sphere`: `_roots`, `ray_intersection`, `cartesian_linear_intersection` over the reals | EQ: algebra of the quadratic, against the polyline specification `At` of `Path`; CEX for ends on the sphere and altitude units |
| C45 | `Crossing`: `find_crossing_points`, `_split_down`, `get_intersection_locations` over an abstract earth (distance, sampling, region test) | INV on the loop over samples; induction on levels and on the crossing list |
| C46,C47,C49 | `Ctx`: context variables as references to heap objects, tokens, `DotDict`, `__init_subclass__`, `_add_entity`; programs are nested blocks with exceptions. The lists returned by `get_actors` etc. are the live lists; programs that modify them are not modelled | REF to reference-free views (`Spec`), then induction over programs; CEX for re-entered contexts, dict names, own `==`, reserved groups |
| C48 | `Units`: the table as built by the module, `str.lower` as a parameter | whole-table decision lifted to all values and strings; CEX for days and weeks |
| C50 | `Table`: all of `data_utils.py` (names as lists of parts; the column names except the location ones left out); the histories are arbitrary, and those of active states come from `Active` | loop = closed form (`Lemmas`), REF to `Spec.Table`; INV that every marker follows a value of its time and that markers are exactly the switchings; CEX for the cases listed in `c50_failures`, `c50_missing`, `c50_columns`, `c50_shared_stays_active` |
| C51 | `WaitEv`: constructor, SimPy timeout, ignored interrupts | INV over traces |
| C52 | `Cont`: the two prediction methods | DEC; CEX for the stale stored level |
| C53 | `Rec`: `_do_callback`, `_broadcast_change`, attaching a nucleus | REF |
| C54 | `Rec`: `_do_record_funcs` | REF; CEX for shared recorder objects |
| C55 | `Rehearse`: `MultiEvent.rehearse` | LAW on nested events; CEX for nested members |
| C56 | `Crossing/Legs` | LAW on the halving loop for legs of at least 1157.5 m; the negation for all short legs |
| C57 | `Stepped/Run`, `Delay` | INV on the loop (grid of check times, count of idle checks); persistence; CEX for stopped objects, restart and unregistered objects |
| C58 | `Store/Wake`, `Tank/Wake` on the kernels of C39 | INV: items ≤ pending puts while someone waits (plain store), nothing found or a put pending (filter stores, selection monotone), head of each queue not servable or the opposite event pending (containers); termination measure for settling; CEX for falsy items and withdrawn heads |
| C59 | `Store/Wake`, `Tank/Wake` | INV |
| C60 | `Globe`: all of `geography/spherical.py` over the reals, `atan2` as the argument of a complex number | EQ: places as unit vectors of Euclidean space, lengths as angles, a frame (place, north, east) at each point (`Spec`); CEX at the poles |
| C61 | `Globe/Sample`: circles, `geo_linspace` with both branches of its solution, the conversions of `conversions.py` for the sphere | EQ; error bound from the tolerance of the test; CEX for poles, cancelling coordinates, `ecef_linspace` |
| C62 | `Globe/Track` | EQ: minimum over the span of two vectors; CEX for points behind the origin |
| C63 | `Analytic`: `great_circle_calcs.py` and `analytical_intersection` line by line over the reals | EQ: seen from the sensor, the leg is a cosine wave whose window above cos ρ is computed (`Points`), the mover is where `Path.At` puts it (`Core`); CEX for altitudes, boundary starts, long legs, division by zero |
| C64 | `Locs`: attributes as a dictionary with `__setattr__`, equality, keys and distances of both kinds of locations over the reals (straight lines on the ellipsoid too, `Locs/Wgs84`) | IND over attribute operations; EQ with the Euclidean and great-circle metrics; CEX for `_no_override`, `del`, transitivity, hashes, date line, iteration, cartesian data |
| C65 | `Multi`: `as_event`, `cancel` of multi-events, Waits, requests and Events; waiting and interrupted tasks; SimPy's conditions, their checks, callbacks and removal of checks, one callback at a time in any order | INV over operations and kernel steps (counts of conditions against processed members and checks due); induction on the nesting for occurrence; exact criterion for `cancel` as a fold over the tree; `Told.lean`: what is waited for, made and come about is read off operations and outcomes, and the kernel comes to the end of every instant (measure); CEX for the crashes, shared Events, empty Any, forgotten inner events |
| C66 | `Build`: `__init_states`, `__actual_init__`, collection of states by `__init_subclass__`; `__set__`, `_set_default`, `has_default` of plain, resource, communication-store and multi-store states; caller's dictionaries and tables as objects; classes, `isinstance` and keyword arguments as a parameter `World` | frame relation for setting a state, exact acceptance criteria (IFF), INV over all operations (held values exist; a set resource state is marked); INDUCTION over the arguments and the set of defaults in any order; uniqueness of places for new objects; CEX for popped modes (general), order of random draws, failed actors that stay registered (general), shared defaults, multi stores without valid types |
| C67 | `Running`: `get_running_task(s)`, `interrupt_network`, `start_network_loop`, `add_task_network`, `delete_task_network`, `TaskNetwork.loop` with the queues of `Network`, `Task.run` reduced to phases (made, alive, cleaning up, over), markers, default `on_interrupt`, terminal and decision tasks; SimPy's urgent events, refusal and dropping of interrupts | the specification reads the trace; INV (34 clauses: reports, loops and their tasks, pending interrupts = issued minus arrived, process starts before interrupts, markers) preserved by every operation until an exception ends the simulation; CEX for decisions, the instant after a task, two loops, markers after RESTART |
| C68 | `Logs`: `pretty_now` (parts of the stamp, not the text), `Actor.log`, `get_log`, what `clone` does to log and clock, with and without `new_env`, `MockEnvironment` clocks, stage variables | floor and rounding estimates over the rationals, `unit_convert` from `Units`; INV relating clocks, settings and logs to the trace; a second invariant (sorted, not in the future) for traces in which nobody changes a returned list or puts a clone into an earlier environment; witnesses for such clones, live lists, lost messages, full days and upper-case units |
| C69 | `Listen`: `generate_comms_wait`, `clean_message`, the packing in `make_put`; SimPy's Store with its queues, granted requests processed in order, withdrawal; callbacks are the environment | INV: accepted = handed over ++ granted ++ in the store, in order; owners of requests; the number of unprocessed puts bounds min(items, waiting gets), that of gets bounds min(waiting puts, room); a second invariant (everything not handed over is of now) for attended histories; witnesses for swallowed messages |
| C70 | `Wgs`: `_lla2ecef`, `_ecef2lla` with the constants of WGS84 over the reals, each division by zero, root of a negative number and complex power an error value; the specification is the ellipsoid as a set of points | `c70_normal` by Cauchy-Schwarz on the stretched sphere, `c70_altitude` from it; the formula: Cardano's root `Q` splits the quartic for the foot into two quadratics (`Core`), the positive foot is unique, so the formula returns the radius of the foot of any vertical through the point (`foot_of`); `c70_back` by inserting, `c70_forth` with a vertical from the intermediate value theorem; `c70_centre` negative |
| C71 | `Geod`: `distance_and_bearing`, `point_from_bearing_dist` with their loops, `geo_linspace`, `geo_circle`, `ecef_linspace`, `ecef_and_geo_linspace` over the reals (limits at the poles, where `tan` is undefined); the specification is a geodesic: a curve on the ellipsoid whose unit tangent changes only along the normal | the great circle of the auxiliary sphere, stretched and turned, is shown to be a geodesic (`Curve`); the truncated series are bounded against the exact speed and turning (`Series`, interval arithmetic) and integrated (`Approx`); `c71_inverse` and `c71_direct` compare the end of that geodesic with the place; `c71_found` by contraction; `c71_answers`: the change of longitude is differentiated and its derivative bounded by 0.83 (`Contract`), so that the iterates stay in an interval and converge; `c71_equator` the iterates are a geometric series; `c71_equator_ways` the same eastward and westward by a mirror symmetry of the loop; `c71_equator_exact` the correction terms vanish there; `c71_short` the tangent of a geodesic turns at most by its greatest curvature per metre, so that the ends are nearly as far apart in space as it is long (`Geod/Reach`); `c71_antipodal`, `c71_zero`, `c71_ecef_linspace` negative |
| C72 | `Subdiv`: `subdivide_intersection` and `_to_tuple`, with the search of `Crossing` (C45) run on the spherical earth of `Globe` (C60, C61); the specification is travel along the great circle as a rotation of unit vectors, and the straight distance in space to the sensor | the search is taken apart level by level (`Crossing.Two`); every sampling of a part of the leg is a sampling of the same great circle (`samples_on`), so that the refined neighbours are less than 46.4 m apart; `c72_level` by the intermediate value theorem; `c72_noticed` by counting steps; `c72_missed` computes 14 samples that are all half a step away; `c72_answers_partial` by a simulation (`Crossing/Sim`): the search on the globe goes as a search on an interval of angles (`onArc`), where being in range is a sine wave above a threshold, so that C56 applies; on a level leg the mover is in range for one stretch around the nearest place (`c72_one_stretch`) |
| C73 | `Letters`: `make_put`, `run`, `_attempt`, `_log_attempt` and both `_do_transmit`, with message objects, time, a network that may change, and `debug_log`; the specification `Way` builds the entries attempt by attempt from the sender, without the manager's state | invariant: the entries of every transmission in every phase (`Good`), kept by each operation (`Inv.apply`); `c73_true` by cases on one operation; `c73_harmless` by simulation: states that differ in the log stay so |
| C74 | the heap of `Letters`: `Message` objects by number, so that one can be sent twice | `c74_envelope` by keeping all fields but `time_sent` through every operation; `c74_sent_partial`: `time_sent` is the time of the last "Sent" or "Destination reached" entry (invariant), with the log removed again by `c73_harmless`; `c74_twice` a witness; `c74_received` invariant; `Turn.lean`: `c74_in_turn` (the processes are those of the messages put, in order), and C34 and C36 again for messages under way, with settings and links told from the operations |
| C75 | `Drive`: the hooks of location states and `DetectabilityState`s to the manager and `Actor.clone`, joining `Path` (C18) and `Queued` (C43) into one world with real actors, clones and the clocks of both | `c75_rehearsal` by simulation: the world without clones differs only in the detectability of clones (`Frame`, `Rehearse`); `c75_known`, `c75_transparent_partial` by INV over proper runs (`Invariant`); `c75_seen_partial`: every run without clones is a run of the manager and of each location state on one clock (`Clock`), then C18 and C43 and the uniqueness of the point at a path length, also on the spherical earth (`SeenGeo`); CEX otherwise |
| C76 | `Patrol`: the hooks of location states and `DetectabilityState`s to the stepped manager and the reads of its checks, joining `Path` (C18) and `Stepped` (C42, C57) into one world with real actors and clones | every run is a run of the manager and of each location state on one clock (`Run`, `step_does`), then `c42_after_check_partial`, C18 (cartesian, on the sphere in `Patrol/Spherical`, on the ellipsoid in `Patrol/Wgs84`) and `Stepped/Delay`; `c76_given`, `c76_watched` by induction: radii, detectability, the states of sensors and who is watched follow from what was done; the same for showing an actor and `run_particular`, which look at nobody else (`Shown`); `c76_delay` by INV on the next check; CEX in `Limits`, from the objects the manager cannot know (`Stepped/Unseen`) |
| C77 | `Predict`: one code, executed by `Task.rehearse` (mock clock, summed routines, `rehearse` of events) and by the simulation (SimPy's queue with priorities and order of arrival, Timeouts, nested Conditions, `as_event`, other processes) | SIM: the rehearsal is one event ahead of a task that waits (`Follows`); `Trees`: a condition not over has something in the queue before its end, what `hit` triggers it does at that end (mutual induction on trees); `Builds`: what `as_event` makes of new events; `Linear`: reads cannot be noticed, and `c77_understudy`: a clone (values read, nothing active or locked) is like an actor with nothing active; with active states or locks it is not (`c77_active`, `c77_locked`); `Moving`: the same for the locations of `Path`; `Flight`: C18 and C77 together; CEX in `Limits`, for all times and rates |
| C78 | `Plan`: `loop` as a process that executes the tasks of `Predict` one after the other, with every order among simultaneous events, and `rehearse_network` with one understudy and its clock; queues edited by the tasks (`desk`) | SIM on top of that of C77 (`NFollows`: within a task `Follows`, between tasks the same queue and actor); two instances of the relation: both have the same queue (`Same`, a path to an end task), or the actor has what is still listed in front (`Ahead`, listed tasks); CEX in `Limits`, for all times |
| C79 | `Proxy`: dictionaries, data objects, actors, the program's references and proxies on a heap with addresses; the constructor, `__set__`, `_make_clone`, `clone`, every method of both proxies | SIM (`Rel`): every address has at most one owner, a state or a reference of the program; the specification `Spec` has values and no addresses; INV without conditions for dictionary states (`Apart`); CEX in `Limits` for each condition |
| C80 | `Orders`: no model of its own; the models `Active`, `Nucleus`, `Routing`, `Build`, `Ctx`, `Stepped` and `Queued`, each with the order of its sets as a parameter of the operation, of the configuration or (motion managers) of a step that only reorders | SIM between two runs of the same model (`Alike`: equal but for the order of a set, logs equal per sensor), for any orders at any moments; C36, C49 and C66 for routes, groups and constructors; CEX for each place where the order shows |
| C81 | `Snap`: a heap of mutable objects with any references, variables of the program, `record_data` with and without the copy, the list handed out; `deepcopy` as an isomorphic copy at new addresses (assumed of Python) | INV: the region of a copy is sealed (no variable, object outside or other entry refers into it, its contents never change); contents compared along all paths of keys; CEX for taken entries and changed lists |
| C82 | `Subdiv/WgsModel`: `subdivide_intersection` with the search of `Crossing` (C45) run on the ellipsoid of `Geod` (C71) and `Wgs` (C70); the specification is a geodesic line (a curve whose tangent turns only along the normal) and the straight distance in space to the sensor | places of a sampling are within 14.01 m of their line (C71); a geodesic stays within an eighth of its greatest curvature times the square of its length of its chord (`Geod/Bend`, mean value inequality), and the lines used do not go the long way round (`Geod/Short`), so that the three nested samplings stay within 50 m of the leg (`Near.over`, `found84`); `c82_equator` the samples along the equator are exact, and being in range is a sine wave above a threshold, so that every level of the search sees exactly one crossing (`Crossing/Goes`, for samplings that are only nearly even); `c82_times_partial` two lines from the start to places near each other have nearly the same length (`Geod/Reach`); CEX nearly opposite ends, short legs |

## 4. Not modelled

Floating-point rounding; the sampling and crossing logic (C45) is modelled for any earth model, the formulas of the two earth
models separately (C60 to C63, C70, C71), and both together in C72 and C82; text formatting;
`inspect`-based signature checks; Python class machinery (descriptors, metaclass hooks) except as stated.
