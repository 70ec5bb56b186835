{
 "claims": [
  {
   "property": "C01",
   "status": "proved",
   "theorems": [
    "Verif.Reserve.c01_accounting",
    "Verif.Reserve.c01_refused_unchanged",
    "Verif.Reserve.c01_nonneg"
   ],
   "note": ""
  },
  {
   "property": "C02",
   "status": "proved",
   "theorems": [
    "Verif.Reserve.c02_grant_iff",
    "Verif.Reserve.c02_honoured"
   ],
   "note": ""
  },
  {
   "property": "C03",
   "status": "partial",
   "theorems": [
    "Verif.Reserve.c03_capacity_partial",
    "Verif.Reserve.c03_refused_only_if_full",
    "Verif.Reserve.c03_capacity_violated",
    "Verif.Reserve.c03_capacity_unbounded"
   ],
   "note": "False of the code in general: put checks capacity against the available amount only. The partial theorem gives the exact guard (no reservation outstanding at puts)."
  },
  {
   "property": "C04",
   "status": "partial",
   "theorems": [
    "Verif.Reserve.c04_not_cancelled_early_partial",
    "Verif.Reserve.c04_expires_on_time",
    "Verif.Reserve.c04_stale_timer_cancels_later"
   ],
   "note": "False of the code: a timer left over from an earlier reservation cancels a later one of the same requester. Partial theorem excludes such stale timers; expiry on time is unconditional."
  },
  {
   "property": "C05",
   "status": "partial",
   "theorems": [
    "Verif.Store.c05_returns_first_best",
    "Verif.Store.c05_returns_first_match",
    "Verif.Store.c05_served_iff_partial",
    "Verif.Store.c05_filter_get",
    "Verif.Store.c05_falsy_item_never_served",
    "Verif.Store.c05_equal_items_confused"
   ],
   "note": "Soundness of what is returned is proved; completeness needs truthy items (counterexample proved for falsy items), removal needs == to be identity (counterexample proved)."
  },
  {
   "property": "C06",
   "status": "proved",
   "theorems": [
    "Verif.Store.c06_store_log",
    "Verif.Tank.c06_container_log",
    "Verif.Reserve.c06_reserve_log",
    "Verif.Cont.c06_continuous_log"
   ],
   "note": "Stores (plain, filter, sorted), containers, reserve containers and continuous containers."
  },
  {
   "property": "C07",
   "status": "proved",
   "theorems": [
    "Verif.Cont.c07_level_is_integral",
    "Verif.Cont.c07_reads_invisible"
   ],
   "note": ""
  },
  {
   "property": "C08",
   "status": "proved",
   "theorems": [
    "Verif.Cont.c08_within_bounds",
    "Verif.Cont.c08_no_time_at_bound",
    "Verif.Cont.c08_notified_at_bound",
    "Verif.Cont.c08_notified_disconnected",
    "Verif.Cont.c08_errors",
    "Verif.Cont.c08_init_above_capacity"
   ],
   "note": "Initial level within [0, capacity]; the constructor does not check this and c08_init_above_capacity shows the property fails without it."
  },
  {
   "property": "C09",
   "status": "proved",
   "theorems": [
    "Verif.Cont.c09_rate_is_sum",
    "Verif.Cont.c09_idle_constant",
    "Verif.Cont.c09_runtime",
    "Verif.Cont.c09_cancel_race_ends_simulation"
   ],
   "note": "The bookkeeping is proved for all schedules; c09_cancel_race_ends_simulation records that cancelling in the same instant as a pending re-check makes the code raise."
  },
  {
   "property": "C10",
   "status": "proved",
   "theorems": [
    "Verif.Active.c10_exclusive",
    "Verif.Active.c10_released",
    "Verif.Active.c10_deactivate_all"
   ],
   "note": "c10_released and c10_deactivate_all are for well-formed activations (a rate is given); see c11_malformed_activation_bricks for what happens otherwise."
  },
  {
   "property": "C11",
   "status": "proved",
   "theorems": [
    "Verif.Active.c11_linear_reads",
    "Verif.Active.c11_constant_after",
    "Verif.Active.c11_malformed_activation_bricks"
   ],
   "note": "Guard: activations of the state give a rate, and assignments to it happen when it is fresh (C12)."
  },
  {
   "property": "C12",
   "status": "partial",
   "theorems": [
    "Verif.Active.c12_assign_adds_stale_change",
    "Verif.Active.c12_assign_partial",
    "Verif.Active.c12_read_first",
    "Verif.Active.c12_plain"
   ],
   "note": "False of the code unless the state was read at the instant of the assignment (counterexample proved); the partial theorem is exactly under that guard. States that do not change by themselves read what was assigned last (c12_plain)."
  },
  {
   "property": "C13",
   "status": "proved",
   "theorems": [
    "Verif.Active.c13_value_is_sum"
   ],
   "note": ""
  },
  {
   "property": "C14",
   "status": "partial",
   "theorems": [
    "Verif.Active.c14_active_history",
    "Verif.Rec.c14_history",
    "Verif.KeyVal.c14_dict_history_partial",
    "Verif.KeyVal.c14_dataclass_history_partial",
    "Verif.KeyVal.c14_dict_duplicates_dropped",
    "Verif.KeyVal.c14_dict_value_not_recorded",
    "Verif.KeyVal.c14_dict_reads",
    "Verif.KeyVal.c14_dataclass_reads"
   ],
   "note": "Plain and active states in full. Dictionary and dataclass states: false of the code for duplicates and for values given at creation or by in-place change (counterexamples), partial theorems for the guarded cases. What reading a key of a dictionary state or a field of a dataclass state gives follows from the assignments (c14_dict_reads, c14_dataclass_reads)."
  },
  {
   "property": "C15",
   "status": "partial",
   "theorems": [
    "Verif.Rec.c15_frozen_partial",
    "Verif.Rec.c15_frozen_none_reassigned"
   ],
   "note": "False when the frozen value is None (counterexample proved); proved for every other value."
  },
  {
   "property": "C16",
   "status": "partial",
   "theorems": [
    "Verif.Rec.c16_refused_unchanged",
    "Verif.Rec.c16_well_typed",
    "Verif.KeyVal.c16_dict_keeps_wrong_value",
    "Verif.KeyVal.c16_dataclass_unchecked_at_creation",
    "Verif.KeyVal.c16_dict_history_partial",
    "Verif.KeyVal.c16_dataclass_refused_partial",
    "Verif.KeyVal.c16_dataclass_unknown_name_ignored",
    "Verif.Mimic.c16_mimic_records_wrong_type"
   ],
   "note": "Plain states in full. Dictionary states keep a wrongly typed value after raising; dataclass states are unchecked at creation; a mimic's recorder records wrongly typed values (counterexamples)."
  },
  {
   "property": "C17",
   "status": "partial",
   "theorems": [
    "Verif.Mimic.c17_tracks",
    "Verif.Mimic.c17_keeps_last",
    "Verif.Mimic.c17_constant_without_mimic",
    "Verif.Mimic.c17_records",
    "Verif.Mimic.c17_end_all_partial",
    "Verif.Mimic.c17_end_all_ends_others",
    "Verif.Mimic.c17_other_task_ends_mimic"
   ],
   "note": "Tracking, keeping the last value and recording are proved. That no task can end another task's mimic is false of the code (two counterexamples); partial theorem for one managing task."
  },
  {
   "property": "C18",
   "status": "partial",
   "theorems": [
    "Verif.Path.c18_position_partial",
    "Verif.Path.c18_close_partial",
    "Verif.Path.c18_start",
    "Verif.Path.c18_arrival_partial",
    "Verif.Path.c18_travel_time_partial",
    "Verif.Path.c18_reads",
    "Verif.Path.c18_remaining_partial",
    "Verif.Path.c18_stop",
    "Verif.Path.c18_reached_remaining",
    "Verif.Path.c18_zero_leg",
    "Verif.Path.c18_geodetic_partial",
    "Verif.Path.c18_geodetic_close_partial",
    "Verif.Path.c18_geodetic_arrival_partial",
    "Verif.Path.c18_geodetic_travel_time_partial",
    "Verif.Path.c18_past_end",
    "Verif.Globe.c18_spherical_partial",
    "Verif.Globe.c18_spherical_close_partial",
    "Verif.Globe.c18_spherical_travel_time_partial",
    "Verif.Globe.c18_pole",
    "Verif.Globe.c18_radians",
    "Verif.Geod.c18_wgs84_partial",
    "Verif.Geod.c18_wgs84_arrival_partial",
    "Verif.Geod.c18_wgs84_jump"
   ],
   "note": "Real numbers for floats. The position is exact except during the slack (1e-12 time units) after a waypoint, when it is proved within 2*speed*slack; legs shorter than the slack are covered by that bound. False of the code: the waypoint just reached is still reported as remaining; a movement whose first waypoint is the current place cannot be read within the slack (ZeroDivisionError). Geodetic: for every earth model whose functions fit together, and the spherical one is proved to do so for starts off the poles. False of the code: an actor starting at a pole moves along the meridian of its own longitude whatever the waypoint; locations in radians are taken for degrees. With WGS84 the functions do not fit together: the locations read are proved within 14 m of the straight line of the ellipsoid at the right length, for legs for which the distance converges, and arrivals within 15 m of the waypoint; c18_wgs84_jump shows that an actor is moved more than 4 m backwards at once when it sets out."
  },
  {
   "property": "C19",
   "status": "proved",
   "theorems": [
    "Verif.Know.c19_guarded_map"
   ],
   "note": ""
  },
  {
   "property": "C20",
   "status": "partial",
   "theorems": [
    "Verif.Know.c20_bulk_partial",
    "Verif.Know.c20_get_and_clear",
    "Verif.Know.c20_get_bulk",
    "Verif.Know.c20_set_not_atomic",
    "Verif.Know.c20_clear_not_atomic",
    "Verif.Know.c20_get_and_clear_not_atomic"
   ],
   "note": "All-or-nothing is false of the code (three counterexamples); success exactly when every single operation is allowed, and the exact effect in both cases, is proved."
  },
  {
   "property": "C21",
   "status": "partial",
   "theorems": [
    "Verif.Event.c21_succeed",
    "Verif.Event.c21_create",
    "Verif.Event.c21_not_twice",
    "Verif.Event.c21_cleared_without_trigger"
   ],
   "note": "Proved as stated for calls that succeed; when the stored event was triggered by other means the call raises after having cleared the name (counterexample)."
  },
  {
   "property": "C22",
   "status": "proved",
   "theorems": [
    "Verif.Network.c22_execution_order",
    "Verif.Network.c22_consumed_once_in_order"
   ],
   "note": "Refinement to a per-network FIFO specification, for every interleaving of queue calls and task completions on any number of networks."
  },
  {
   "property": "C23",
   "status": "proved",
   "theorems": [
    "Verif.Network.c23_set_queue",
    "Verif.Network.c23_clear",
    "Verif.Network.c23_add_network",
    "Verif.Network.c23_other_networks_untouched",
    "Verif.Network.c23_queries_pure",
    "Verif.Network.c22_execution_order"
   ],
   "note": ""
  },
  {
   "property": "C24",
   "status": "proved",
   "theorems": [
    "Verif.Network.c24_suggested_name_is_free"
   ],
   "note": ""
  },
  {
   "property": "C25",
   "status": "proved",
   "theorems": [
    "Verif.Network.c25_single_looping",
    "Verif.Network.c25_single_terminating",
    "Verif.Network.c25_ordered_terminating",
    "Verif.Network.c25_ordered_loop",
    "Verif.Network.c25_repeated_task_skips",
    "Verif.Network.c25_feasible_looping",
    "Verif.Network.c25_feasible_terminating",
    "Verif.Network.c25_feasible_ordered_terminating",
    "Verif.Network.c25_feasible_ordered_loop"
   ],
   "note": "For tasks with different names, none equal to the generated terminal name (a repeated task cuts the list short, see the counterexample)."
  },
  {
   "property": "C26",
   "status": "partial",
   "theorems": [
    "Verif.Event.c26_knowledge",
    "Verif.TaskRun.c26_ignore",
    "Verif.TaskRun.c26_event_forgotten",
    "Verif.TaskRun.c26_states_released_partial",
    "Verif.TaskRun.c26_end",
    "Verif.TaskRun.c26_restart",
    "Verif.TaskRun.c26_routine_cancelled",
    "Verif.TaskRun.c26_other_answers",
    "Verif.TaskRun.c26_foreign_mimic",
    "Verif.TaskRun.c26_second_interrupt"
   ],
   "note": "For every task and routine program. The release of states and mimics needs that no other task manages mimics on the actor and that cancelling the event does not raise; the code violates the rest: c26_foreign_mimic, c26_second_interrupt."
  },
  {
   "property": "C27",
   "status": "partial",
   "theorems": [
    "Verif.TaskRun.c27_no_routines",
    "Verif.TaskRun.c27_task_values_partial",
    "Verif.TaskRun.c27_values_partial",
    "Verif.TaskRun.c27_none_lost",
    "Verif.TaskRun.c27_routine_gets_nothing",
    "Verif.TaskRun.c27_routine_after_value",
    "Verif.TaskRun.c27_nested_routine_crashes"
   ],
   "note": "Full for tasks without routines. With routines the code violates the statement in three ways, each proved; the partial theorems give the exact conditions under which it holds."
  },
  {
   "property": "C28",
   "status": "partial",
   "theorems": [
    "Verif.Rehearse.c28_clock",
    "Verif.Rehearse.c28_finishes",
    "Verif.Rehearse.c28_work",
    "Verif.Rehearse.c28_no_side_effects_partial",
    "Verif.Rehearse.c28_failed_rehearsal_leaves_task_mocked",
    "Verif.Rehearse.c28_next_rehearsal_wrong_time"
   ],
   "note": "The time and success of a rehearsal in full, for every script of yields (events, nested Any and All, routines). No side effects: proved for code that does not change queue lists in place. False of the code: a failed rehearsal leaves the task mocked, and its next rehearsal uses the stale clock (counterexamples)."
  },
  {
   "property": "C29",
   "status": "partial",
   "theorems": [
    "Verif.Rehearse.c29_ordered",
    "Verif.Rehearse.c29_finished",
    "Verif.Rehearse.c29_infeasible",
    "Verif.Rehearse.c29_clock",
    "Verif.Rehearse.c29_work",
    "Verif.Rehearse.c29_isolated_partial",
    "Verif.Rehearse.c29_end_task_not_rehearsed",
    "Verif.Rehearse.c29_end_task_path",
    "Verif.Rehearse.c29_end_task_empties_queue",
    "Verif.Rehearse.c29_failure_moves_network",
    "Verif.Rehearse.c29_failure_position",
    "Verif.Rehearse.c29_empty_list_fails"
   ],
   "note": "Order, feasibility, time and position proved for rehearsals of the list. Isolation needs no end task: with one the original's queue is emptied; a failing rehearsal does not restore the position (it stays at the last task begun, proved in general); an empty list with an end task always fails (proved)."
  },
  {
   "property": "C30",
   "status": "partial",
   "theorems": [
    "Verif.Clone.c30_equal",
    "Verif.Clone.c30_independent_partial",
    "Verif.Clone.c30_queues_partial",
    "Verif.Clone.c30_queue_own_list",
    "Verif.Clone.c30_queue_shared",
    "Verif.Clone.c30_nested_shared",
    "Verif.Clone.c30_clone_of_clone",
    "Verif.Clone.c30_resource_object"
   ],
   "note": "Equality at cloning in full; independence for state, knowledge and queue assignments and for in-place changes of values held at top level. False of the code for queue lists changed in place, for nested objects and for cloning actors whose resources were passed as objects (counterexamples)."
  },
  {
   "property": "C31",
   "status": "partial",
   "theorems": [
    "Verif.Nucleus.c31_interrupts",
    "Verif.Nucleus.c31_succeeds",
    "Verif.Nucleus.c31_unwatched",
    "Verif.Nucleus.c31_remove_ok",
    "Verif.Nucleus.c31_removed",
    "Verif.Nucleus.c31_deleted_network",
    "Verif.Nucleus.c31_own_network",
    "Verif.Nucleus.c31_between_tasks"
   ],
   "note": "Proved for every change that does not fail, with the exact condition under which it cannot fail. False of the code in three situations, each with a counterexample: a watching network deleted from the actor, a task changing a state its own network watches, a change made between two tasks."
  },
  {
   "property": "C32",
   "status": "partial",
   "theorems": [
    "Verif.TaskRun.c32_terminal",
    "Verif.Decision.c32_decision",
    "Verif.Decision.c32_decision_interrupted"
   ],
   "note": "Terminal tasks and timing of decisions proved; an interrupt in the very instant of a decision fails the process (c32_decision_interrupted)."
  },
  {
   "property": "C33",
   "status": "proved",
   "theorems": [
    "Verif.Comms.c33_budget",
    "Verif.Comms.c33_retry_policy",
    "Verif.Comms.c33_check_made",
    "Verif.Comms.c33_negative_budget"
   ],
   "note": "For every configuration with positive rate and non-negative maximum, every run of the manager and every behaviour of the link; a negative maximum never gives up (shown separately)."
  },
  {
   "property": "C34",
   "status": "proved",
   "theorems": [
    "Verif.Comms.c34_exactly_configured",
    "Verif.Comms.c34_directed",
    "Verif.Comms.c34_last_set",
    "Verif.Letters.c34_letters"
   ],
   "note": ""
  },
  {
   "property": "C35",
   "status": "proved",
   "theorems": [
    "Verif.Comms.c35_at_most_once",
    "Verif.Comms.c35_exactly_once",
    "Verif.Comms.c35_right_store",
    "Verif.Comms.c35_connected_store",
    "Verif.Comms.c35_destination_ignored"
   ],
   "note": "Delivery of the message as handed over. A Message object given with another destination keeps its own (shown separately); a destination without a store makes the transmission fail, stated in the theorem."
  },
  {
   "property": "C36",
   "status": "partial",
   "theorems": [
    "Verif.Routing.c36_shortest_partial",
    "Verif.Routing.c36_search_ends",
    "Verif.Routing.c36_connect",
    "Verif.Routing.c36_ignored_destination",
    "Verif.Letters.c36_letters_partial"
   ],
   "note": "In full for a destination that is not itself ignored. An ignored destination that is a direct neighbour is still selected (counterexample)."
  },
  {
   "property": "C37",
   "status": "partial",
   "theorems": [
    "Verif.Routing.c37_ends_partial",
    "Verif.Routing.c37_two_way_partial",
    "Verif.Routing.c37_not_again_partial",
    "Verif.Routing.c37_along_working_links",
    "Verif.Routing.c37_all_up",
    "Verif.Routing.c37_no_route",
    "Verif.Routing.c37_over",
    "Verif.Routing.c37_replans",
    "Verif.Routing.c37_final_link",
    "Verif.Routing.c37_ping_pong",
    "Verif.Routing.c37_tried_again",
    "Verif.Routing.c37_route_missed_link",
    "Verif.Routing.c37_route_missed_one_way"
   ],
   "note": "The full property is false of the code: a blocked final link is tried forever, without global_ignore a message can go to and fro forever, and working routes can be missed. Proved: with global_ignore everything else ends; with two-way links and failed nodes it is delivered exactly when a route over working nodes exists."
  },
  {
   "property": "C38",
   "status": "partial",
   "theorems": [
    "Verif.Event.c38_triggered_once",
    "Verif.Event.c38_resumed_once",
    "Verif.Event.c38_all_waiters",
    "Verif.Event.c38_payload_partial",
    "Verif.Event.c38_payload_overwritten",
    "Verif.Event.c38_second_succeed_refused",
    "Verif.Event.c38_reset_reuse",
    "Verif.Event.c38_order",
    "Verif.Event.c38_auto_reset",
    "Verif.Event.c38_interrupt_releases_others",
    "Verif.Event.c38_interrupt_after_succeed_raises",
    "Verif.Event.c38_life"
   ],
   "note": "Triggering once, resumption once, release of all waiters, and reset are proved. The payload part is false of the code if a second succeed falls between trigger and processing (counterexample); two more counterexamples about interrupts."
  },
  {
   "property": "C39",
   "status": "partial",
   "theorems": [
    "Verif.Store.c39_conservation",
    "Verif.Store.c39_item_lost",
    "Verif.Store.c39_no_loss_partial",
    "Verif.Store.c39_cancelled_put_never_enters",
    "Verif.Store.c39_fifo",
    "Verif.Tank.c39_container_conservation",
    "Verif.Tank.c39_container_lost",
    "Verif.Tank.c39_container_no_loss_partial"
   ],
   "note": "False of the code: an interrupt between trigger and processing of a Get loses the item (counterexamples for stores and containers). Conservation accounting, cancelled puts and FIFO order are proved; no loss is proved when no interrupt falls in that window."
  },
  {
   "property": "C40",
   "status": "partial",
   "theorems": [
    "Verif.Hold.c40_once_in_order",
    "Verif.Hold.c40_early_release",
    "Verif.Hold.c40_used_up",
    "Verif.Hold.c40_can_release",
    "Verif.Hold.c40_occupied",
    "Verif.Hold.c40_exclusive",
    "Verif.Hold.c40_no_idle_slot",
    "Verif.Hold.c40_first_come",
    "Verif.Hold.c40_cancelled_partial",
    "Verif.Hold.c40_cancel_leaks",
    "Verif.Hold.c40_rehearsed"
   ],
   "note": "Everything is proved for all sequences of operations except that a request which is granted but not yet processed keeps its slot when cancelled (counterexample c40_cancel_leaks); rehearsing a hold makes it unusable (c40_rehearsed)."
  },
  {
   "property": "C41",
   "status": "partial",
   "theorems": [
    "Verif.Windowed.c41_returns",
    "Verif.Windowed.c41_window",
    "Verif.Windowed.c41_gives_back",
    "Verif.Windowed.c41_conserved",
    "Verif.Windowed.c41_goes_on",
    "Verif.Windowed.c41_no_loss_partial",
    "Verif.Windowed.c41_lost_at_the_end",
    "Verif.Windowed.c41_interrupt_crashes",
    "Verif.Windowed.c41_second_interrupt_crashes"
   ],
   "note": "Result, window, giving back and conservation are proved for every history in which the routine ends or finishes its clean-up, with any other users of the store and any store discipline. Violated when an item is on its way to the routine as it ends (lost) or is interrupted (the simulation crashes), and when it is interrupted while putting items back."
  },
  {
   "property": "C42",
   "status": "partial",
   "theorems": [
    "Verif.Stepped.c42_alternate",
    "Verif.Stepped.c42_after_check_partial",
    "Verif.Stepped.c42_after_particular_partial",
    "Verif.Stepped.c42_after_appearing_partial",
    "Verif.Stepped.c42_undetectable_partial",
    "Verif.Stepped.c42_after_hiding",
    "Verif.Stepped.c42_truthful_partial",
    "Verif.Stepped.c42_hidden_by_callback"
   ],
   "note": "Alternation and hiding for every history. The agreement with visibility is proved for sensors whose entity_entered_range does not make objects undetectable; with such a sensor it is false (counterexample). entity_exited_range is assumed not to call the manager."
  },
  {
   "property": "C43",
   "status": "partial",
   "theorems": [
    "Verif.Queued.c43_trip_partial",
    "Verif.Queued.c43_restart_partial",
    "Verif.Queued.c43_course_partial",
    "Verif.Queued.c43_sensor_partial",
    "Verif.Queued.c43_stop_partial",
    "Verif.Queued.c43_hidden_partial",
    "Verif.Queued.c43_unseen_partial",
    "Verif.Queued.c43_never_seen",
    "Verif.Queued.c43_given",
    "Verif.Queued.c43_accepted",
    "Verif.Queued.c43_accepted_path",
    "Verif.Queued.c43_accepted_sensor",
    "Verif.Queued.c43_consistent",
    "Verif.Queued.c43_refused_start",
    "Verif.Queued.c43_refused_sensor",
    "Verif.Queued.c43_cartesian_accepts",
    "Verif.Queued.c43_cartesian_accepts_sensor",
    "Verif.Queued.c43_analytic_accepts_partial",
    "Verif.Queued.c43_analytic_accepts_sensor_partial",
    "Verif.Queued.c43_cut_short_partial",
    "Verif.Queued.c43_progress",
    "Verif.Queued.c43_cartesian_partial",
    "Verif.Queued.c43_analytic_partial",
    "Verif.Queued.c43_source",
    "Verif.Queued.c43_source_added",
    "Verif.Queued.c43_sampled_path_partial",
    "Verif.Queued.c43_sampled_partial",
    "Verif.Queued.c43_sampled_wgs84_partial",
    "Verif.Queued.c43_one_stay",
    "Verif.Queued.c43_one_stay_added",
    "Verif.Queued.c43_sampled_stay_partial",
    "Verif.Queued.c43_sampled_pass_partial",
    "Verif.Queued.c43_sampled_starts_partial",
    "Verif.Queued.c43_sampled_wgs84_starts_partial",
    "Verif.Queued.c43_missed_leg",
    "Verif.Queued.c43_missed_leg_cartesian",
    "Verif.Queued.c43_touched",
    "Verif.Queued.c43_becomes_detectable",
    "Verif.Queued.c43_cannot_stop",
    "Verif.Queued.c43_no_legs",
    "Verif.Queued.c43_sensor_twice",
    "Verif.Queued.c43_sensor_at_exit",
    "Verif.Queued.c43_stop_at_start"
   ],
   "note": "For every reachable state, every schedule of the kernel and everything done to other movers and sensors: exactly the entries and exits up to now, alternately and at their times, given an exact intersection model; the cartesian model (reals for floats) is exact when the mover does not get in range after a leg that misses the sensor, and so is analytical_intersection on the spherical earth for fair legs at altitude zero (c43_analytic_partial). A mover may start again while the interrupted processes of its last trip have not ended (c43_restart_partial), as when it changes course (c43_course_partial). Until made detectable again a hidden mover goes unnoticed whatever is done (c43_unseen_partial, c43_never_seen). Missing: paths that get in range after such a leg (false of the code: times too early by the leg time plus one), touching paths, movers becoming detectable on the way, sensors added again or at an exit, a stop in the instant of the start, a path without legs (all false of the code), with the sampled geodetic intersection models stays shorter than 9261 m and paths of several legs. A start or sensor that raises is kept all the same (c43_refused_start, c43_refused_sensor). With any intersection model everything told is a crossing reported for a leg, at its time (c43_source); with the numerical models what is told is in range to within the sampling (c43_sampled_partial, c43_sampled_wgs84_partial), and on the spherical earth a single stay of at least 9261 m on a level leg, also from the start or to the end, is told once, each end within 46.4 m (c43_sampled_stay_partial); starting along a cartesian path raises exactly when a leg is of one of the three kinds on which the intersection does (c43_cartesian_accepts; adding a sensor likewise, c43_cartesian_accepts_sensor), along a path of fair legs with the analytical model never (c43_analytic_accepts_partial), and on a leg with the sampled models only when the search does (c43_sampled_starts_partial, c43_sampled_wgs84_starts_partial)."
  },
  {
   "property": "C44",
   "status": "partial",
   "theorems": [
    "Verif.Sphere.c44_exact_partial",
    "Verif.Sphere.c44_start_on_sphere",
    "Verif.Sphere.c44_end_on_sphere",
    "Verif.Sphere.c44_no_leg",
    "Verif.Sphere.c44_end_entering",
    "Verif.Sphere.c44_altitude_units",
    "Verif.Sphere.c44_ellipsoid"
   ],
   "note": "Real numbers for floats. No exception; the two reported times bound exactly the times within the radius (the position is the polyline specification of C18), the reported locations are the positions at those times, and BAD is reported exactly when the mover is never inside; for all legs except: those starting on the sphere and going through or along it (three intersections, an exception: c44_start_on_sphere), those ending on the sphere after coming through it (c44_end_on_sphere), those of length zero outside (c44_no_leg), and heights in altitude units (c44_altitude_units). c44_ellipsoid: a direct call of ray_intersection, with one radius per axis, is exact for every ellipsoid."
  },
  {
   "property": "C45",
   "status": "proved",
   "theorems": [
    "Verif.Crossing.c45_loop",
    "Verif.Crossing.c45_crossing_list",
    "Verif.Crossing.c45_count",
    "Verif.Crossing.c45_alternate",
    "Verif.Crossing.c45_neighbours",
    "Verif.Crossing.c45_locations",
    "Verif.Crossing.c45_errors"
   ],
   "note": "For every region, every sampling and every leg, with exact rational distances; the theorem on errors needs samplings that begin and end exactly at the given points, the distances in the one on locations need evenly spaced samples."
  },
  {
   "property": "C46",
   "status": "partial",
   "theorems": [
    "Verif.Ctx.c46_contexts_partial",
    "Verif.Ctx.c46_restored_partial",
    "Verif.Ctx.c46_fresh",
    "Verif.Ctx.c46_reentered"
   ],
   "note": "For all programs of nested blocks, exceptions and modifications in which no context object is entered inside its own block; re-entering the same object makes the outer exit raise and restores nothing (counterexample)."
  },
  {
   "property": "C47",
   "status": "partial",
   "theorems": [
    "Verif.Ctx.c47_write_once_partial",
    "Verif.Ctx.c47_missing",
    "Verif.Ctx.c47_fresh",
    "Verif.Ctx.c47_dict_name",
    "Verif.Ctx.c47_overwritten"
   ],
   "note": "Names that are attributes of dict read back a method, and the stage can be overwritten as a dictionary (counterexamples); proved for every other name and every program that does neither."
  },
  {
   "property": "C48",
   "status": "partial",
   "theorems": [
    "Verif.Units.c48_roundtrip_partial",
    "Verif.Units.c48_standard_units_partial",
    "Verif.Units.c48_alternates",
    "Verif.Units.c48_raises",
    "Verif.Units.c48_positive_factor",
    "Verif.Units.c48_times_consistent",
    "Verif.Units.c48_sizes",
    "Verif.Units.c48_distances_nearly_consistent",
    "Verif.Units.c48_no_way_back",
    "Verif.Units.c48_day_to_day",
    "Verif.Units.c48_distances_inconsistent"
   ],
   "note": "Exact rational arithmetic. Days and weeks are incomplete in the table: c48_no_way_back, c48_day_to_day."
  },
  {
   "property": "C49",
   "status": "partial",
   "theorems": [
    "Verif.Ctx.c49_groups",
    "Verif.Ctx.c49_registered_partial",
    "Verif.Ctx.c49_separate_partial",
    "Verif.Ctx.c49_equal_instances",
    "Verif.Ctx.c49_reserved"
   ],
   "note": "Proved for all class hierarchies and programs with identity equality, for all group names outside SKIP_GROUPS; counterexamples for the rest."
  },
  {
   "property": "C50",
   "status": "partial",
   "theorems": [
    "Verif.Table.c50_rows_partial",
    "Verif.Table.c50_one_row_each",
    "Verif.Table.c50_active_histories",
    "Verif.Table.c50_linear_markers",
    "Verif.Table.c50_actor_partial",
    "Verif.Table.c50_table_partial",
    "Verif.Table.c50_locations_partial",
    "Verif.Table.c50_shared_stays_active",
    "Verif.Table.c50_failures",
    "Verif.Table.c50_missing",
    "Verif.Table.c50_columns"
   ],
   "note": "Proved for every history that begins with a value and contains no empty dictionary, which all reachable histories of active states do; for all actors whose states have values and whose keys have histories. Counterexamples: shared states record no deactivation, never-set states and keys changed on the raw dictionary make the export fail, location columns named after the last actor."
  },
  {
   "property": "C51",
   "status": "proved",
   "theorems": [
    "Verif.WaitEv.c51_resume_time",
    "Verif.WaitEv.c51_not_late",
    "Verif.WaitEv.c51_delay",
    "Verif.WaitEv.c51_uniform"
   ],
   "note": "The non-number check of the constructor is not modelled."
  },
  {
   "property": "C52",
   "status": "partial",
   "theorems": [
    "Verif.Cont.c52_time_until_done",
    "Verif.Cont.c52_time_until_level_partial",
    "Verif.Cont.c52_time_until_level_stale"
   ],
   "note": "time_until_level uses the stored level, not refreshed: false unless the level was refreshed at the query instant (counterexample proved)."
  },
  {
   "property": "C53",
   "status": "proved",
   "theorems": [
    "Verif.Rec.c53_callbacks",
    "Verif.Rec.c53_notifications",
    "Verif.Rec.c53_one_nucleus",
    "Verif.Rec.c53_attached"
   ],
   "note": ""
  },
  {
   "property": "C54",
   "status": "partial",
   "theorems": [
    "Verif.Rec.c54_recording_functions",
    "Verif.Rec.c54_memoryless",
    "Verif.Rec.c54_recorder_partial",
    "Verif.Rec.c54_recorder_shared"
   ],
   "note": "False for recorder classes: the recorder object is created once per class and shared by all actors (counterexample). Proved for memoryless functions and for a single actor."
  },
  {
   "property": "C55",
   "status": "partial",
   "theorems": [
    "Verif.Rehearse.c55_direct_members",
    "Verif.Rehearse.c55_nested_never_complete"
   ],
   "note": "Proved for events that are direct members; a member that is itself a multi-event never reports completion (counterexample)."
  },
  {
   "property": "C56",
   "status": "partial",
   "theorems": [
    "Verif.Crossing.c56_long_legs_partial",
    "Verif.Crossing.c56_sampled_iff",
    "Verif.Crossing.c56_short_legs_fail",
    "Verif.Crossing.c56_short_crossings_fail"
   ],
   "note": "Proved for legs of at least 1157.5 m. False of the code for every leg under 289.375 m and for every leg under 694.5 m that enters or leaves the region: the search raises."
  },
  {
   "property": "C57",
   "status": "partial",
   "theorems": [
    "Verif.Stepped.c57_grid",
    "Verif.Stepped.c57_start",
    "Verif.Stepped.c57_checked_partial",
    "Verif.Stepped.c57_appearing_partial",
    "Verif.Stepped.c57_stopped_forgotten",
    "Verif.Stepped.c57_stays_in_view",
    "Verif.Stepped.c57_not_restarted",
    "Verif.Stepped.c57_appearing_fails",
    "Verif.Stepped.c57_delay"
   ],
   "note": "Times of the checks, the single loop and its end are proved for every history; every stretch of one timestep contains a check that ends well while the loop lives (c57_delay); objects are checked until a movement of theirs ends. False of the code: an added object is forgotten when it stops moving (and stays in view), a loop that has ended is never started again, making an object detectable that is not being checked raises."
  },
  {
   "property": "C58",
   "status": "partial",
   "theorems": [
    "Verif.Store.c58_store",
    "Verif.Store.c58_filter_store",
    "Verif.Store.c58_sorted_store_partial",
    "Verif.Store.c58_falsy_waits",
    "Verif.Store.c58_store_settles",
    "Verif.Tank.c58_container_partial",
    "Verif.Tank.c58_withdrawn_head_blocks",
    "Verif.Tank.c58_withdrawn_put_blocks",
    "Verif.Tank.c58_container_settles"
   ],
   "note": "Proved in full for plain and filter stores (every history, with interrupts). Missing: SortedFilterStore with items of truth value False (false of the code), containers when a request waiting in a queue is withdrawn by an interrupt (false of the code: the withdrawal does not try the queue again)."
  },
  {
   "property": "C59",
   "status": "proved",
   "theorems": [
    "Verif.Store.c59_store_capacity",
    "Verif.Store.c59_put_enters_iff",
    "Verif.Tank.c59_container_bounds"
   ],
   "note": "Every kind of store (a served request takes exactly one item out, shown for the three kinds given a reflexive ==) and containers created within bounds."
  },
  {
   "property": "C60",
   "status": "partial",
   "theorems": [
    "Verif.Globe.c60_distance",
    "Verif.Globe.c60_metric",
    "Verif.Globe.c60_same_place",
    "Verif.Globe.c60_bearing_range",
    "Verif.Globe.c60_target",
    "Verif.Globe.c60_destination_partial",
    "Verif.Globe.c60_asin_domain",
    "Verif.Globe.c60_destination_distance_partial",
    "Verif.Globe.c60_destination_bearing_partial",
    "Verif.Globe.c60_reach_partial",
    "Verif.Globe.c60_part_partial",
    "Verif.Globe.c60_point_along_partial",
    "Verif.Globe.c60_ways_agree_partial",
    "Verif.Globe.c60_pole_ignores_bearing",
    "Verif.Globe.c60_pole_misses",
    "Verif.Globe.c60_pole_example",
    "Verif.Globe.c60_point_along_same",
    "Verif.Globe.c60_longitude_past_180"
   ],
   "note": "Real numbers for floats. Distance and bearing are right everywhere. False of the code: at a pole point_from_bearing_dist ignores the bearing; point_along between equal places divides by zero."
  },
  {
   "property": "C61",
   "status": "partial",
   "theorems": [
    "Verif.Globe.c61_circle_partial",
    "Verif.Globe.c61_circle_pole",
    "Verif.Globe.c61_lla2ecef",
    "Verif.Globe.c61_ecef_direction",
    "Verif.Globe.c61_ecef_back_partial",
    "Verif.Globe.c61_ecef_near_axis",
    "Verif.Globe.c61_lla_back_partial",
    "Verif.Globe.c61_linspace_partial",
    "Verif.Globe.c61_linspace_end_partial",
    "Verif.Globe.c61_linspace_cancels",
    "Verif.Globe.c61_linspace_same",
    "Verif.Globe.c61_ecef_linspace",
    "Verif.Globe.c61_ecef_and_geo"
   ],
   "note": "Real numbers for floats. False of the code: circles around a pole collapse to a point; geo_linspace fails for equal places and when the first cartesian coordinates of the ends cancel; ecef_linspace never returns; within a metre of the axis the altitude is approximate. The last point of geo_linspace may be off by the tolerance 1e-8 of its test."
  },
  {
   "property": "C62",
   "status": "partial",
   "theorems": [
    "Verif.Globe.c62_cross_track_distance",
    "Verif.Globe.c62_cross_track_point_partial",
    "Verif.Globe.c62_behind"
   ],
   "note": "Real numbers for floats. The distance is right for all points and every proper great circle. cross_track_point: right for points ahead of the origin (origin off the poles, point not a quarter of the globe from the circle); false of the code for points behind the origin."
  },
  {
   "property": "C63",
   "status": "partial",
   "theorems": [
    "Verif.Analytic.c63_exact_partial",
    "Verif.Analytic.c63_altitude",
    "Verif.Analytic.c63_raises",
    "Verif.Analytic.c63_leaving",
    "Verif.Analytic.c63_long"
   ],
   "note": "Real numbers for floats. Exact for legs at altitude zero from a start off the poles, with the sensor neither at the start nor opposite to it, a range below a quarter of the globe and leg plus range at most half of it, not starting or ending on the boundary without coming inside. False of the code: above the ground times are late by 1 + h/R and altitudes on a climb wrong; errors for a sensor at the start, a start at a pole, a leg of no length, a mover above the radius; entry before the start when leaving from the boundary; crossings missed on long legs."
  },
  {
   "property": "C64",
   "status": "partial",
   "theorems": [
    "Verif.Locs.c64_frozen_partial",
    "Verif.Locs.c64_new",
    "Verif.Locs.c64_lifted",
    "Verif.Locs.c64_deleted",
    "Verif.Locs.c64_cartesian_metric",
    "Verif.Locs.c64_cartesian_eq_partial",
    "Verif.Locs.c64_not_transitive",
    "Verif.Locs.c64_cartesian_hash",
    "Verif.Locs.c64_geodetic_eq",
    "Verif.Locs.c64_convert",
    "Verif.Locs.c64_geodetic_hash",
    "Verif.Locs.c64_same_place",
    "Verif.Locs.c64_dist_with_altitude",
    "Verif.Locs.c64_straight_line",
    "Verif.Locs.c64_straight_line_wgs84",
    "Verif.Locs.c64_items",
    "Verif.Locs.c64_iterate",
    "Verif.Locs.c64_geodetic_data",
    "Verif.Locs.c64_cartesian_data",
    "Verif.Locs.c64_cartesian_data_make"
   ],
   "note": "Real numbers for floats. False of the code: _no_override can be assigned and coordinates deleted; == of cartesian locations is not transitive (tolerance 1e-5) and differs from the hash; a geodetic location and the same in radians are equal with different keys; the same place with longitudes 180 and -180, or at a pole, is not equal; cartesian locations cannot be unpacked; cartesian data ignore the altitude unit in == and default to the other unit."
  },
  {
   "property": "C65",
   "status": "partial",
   "theorems": [
    "Verif.Multi.c65_instant",
    "Verif.Multi.c65_resumed_partial",
    "Verif.Multi.c65_members",
    "Verif.Multi.c65_is_complete_partial",
    "Verif.Multi.c65_interrupt_iff",
    "Verif.Multi.c65_interrupt_any_partial",
    "Verif.Multi.c65_interrupt_flat_partial",
    "Verif.Multi.c65_withdrawn_partial",
    "Verif.Multi.c65_withdrawn_forever",
    "Verif.Multi.c65_local",
    "Verif.Multi.c65_oversleeps",
    "Verif.Multi.c65_goes_on",
    "Verif.Multi.c65_usable",
    "Verif.Multi.c65_crash_event",
    "Verif.Multi.c65_crash_inner",
    "Verif.Multi.c65_crash_instant",
    "Verif.Multi.c65_crash_twice",
    "Verif.Multi.c65_wakes_others",
    "Verif.Multi.c65_empty",
    "Verif.Multi.c65_forgotten"
   ],
   "note": "Nobody oversleeps: proved in full; the exact criterion for an interrupt to be handled without exception too. False of the code: an interrupt raises when a multi-event or Event in the tree was already triggered or an Event stands in it twice, and the requests behind stay queued; cancelling triggers a shared Event and wakes other tasks; an empty Any is over at once; an inner multi-event is never complete once the outer one is. A multi-event object is waited for once and by one task."
  },
  {
   "property": "C66",
   "status": "partial",
   "theorems": [
    "Verif.Build.c66_values",
    "Verif.Build.c66_arguments",
    "Verif.Build.c66_succeeds_partial",
    "Verif.Build.c66_modes_partial",
    "Verif.Build.c66_modes_taken",
    "Verif.Build.c66_modes_lost",
    "Verif.Build.c66_own",
    "Verif.Build.c66_shared_default",
    "Verif.Build.c66_untouched_partial",
    "Verif.Build.c66_registered",
    "Verif.Build.c66_forever",
    "Verif.Build.c66_random_partial",
    "Verif.Build.c66_random_order",
    "Verif.Build.c66_class",
    "Verif.Build.c66_anything"
   ],
   "note": "Values, own resources and permanence: proved in full. False of the code: the modes are popped from the caller's dictionary, so the same call fails (or gets the class's modes) the second time; which state gets which random number depends on the order of a set of strings; an actor that could not be made stays registered; a mutable default is shared; a MultiStoreState without valid types takes anything. Not modelled: recording, mimicking, initial knowledge, groups (other topics)."
  },
  {
   "property": "C67",
   "status": "partial",
   "theorems": [
    "Verif.Running.c67_report",
    "Verif.Running.c67_all",
    "Verif.Running.c67_alive",
    "Verif.Running.c67_interrupt",
    "Verif.Running.c67_interrupt_rest",
    "Verif.Running.c67_delivered",
    "Verif.Running.c67_arrives",
    "Verif.Running.c67_answer",
    "Verif.Running.c67_return",
    "Verif.Running.c67_markers",
    "Verif.Running.c67_fresh",
    "Verif.Running.c67_only",
    "Verif.Running.c67_decision",
    "Verif.Running.c67_race",
    "Verif.Running.c67_twice",
    "Verif.Running.c67_restart"
   ],
   "note": "For every history without an exception that ended the simulation: the exact report, agreement of both functions, truth of the report whenever time goes on, exact outcome of interrupt_network, of the arrival of an interrupt, of the answer and of the return; order, time and uniqueness of arrivals; markers; one task at a time on a network started once. False of the code, with witnesses: during a DO_NOT_HOLD decision the report names the decision with the process of the finished task and interrupt_network raises; so it does at the instant in which a task ended; a network started twice runs two tasks of which one is neither reported nor reachable; RESTART keeps the markers; an interrupt during a holding decision or during the cleaning up after END or RESTART ends the simulation (in c67_arrives)."
  },
  {
   "property": "C68",
   "status": "partial",
   "theorems": [
    "Verif.Logs.c68_right",
    "Verif.Logs.c68_order",
    "Verif.Logs.c68_full_day",
    "Verif.Logs.c68_upper_case",
    "Verif.Logs.c68_days",
    "Verif.Logs.c68_log",
    "Verif.Logs.c68_refused",
    "Verif.Logs.c68_sorted_partial",
    "Verif.Logs.c68_backwards",
    "Verif.Logs.c68_isolated",
    "Verif.Logs.c68_live"
   ],
   "note": "Stamps right for every rational time, unit and stage; logs exact for every history. False of the code, with witnesses: the returned list is the log itself, so who changes it changes the log; a daily_time_count of zero makes log raise and the message is lost; the rest of a day can be shown as a whole day; \"HR\" is not shown as a clock though unit_convert knows it; a clone put into an environment that is earlier has times that decrease (c68_backwards; c68_sorted_partial holds if no clone is). A stamp is its parts: padding and brackets are not modelled; floating point rounding is not modelled."
  },
  {
   "property": "C69",
   "status": "partial",
   "theorems": [
    "Verif.Listen.c69_once",
    "Verif.Listen.c69_all",
    "Verif.Listen.c69_called",
    "Verif.Listen.c69_time",
    "Verif.Listen.c69_exactly",
    "Verif.Listen.c69_capacity",
    "Verif.Listen.c69_said",
    "Verif.Listen.c69_texts",
    "Verif.Listen.c69_stopped",
    "Verif.Listen.c69_stopped_late"
   ],
   "note": "Once, in order, with the content, at the time, nothing left: proved for every history in which no listener is stopped (or whose callback raises). False of the code, with witnesses: a stopped listener leaves its request in the store, which swallows the next message; a text put into the store directly reaches the callback in another form than one sent with make_put. The failure of a stopped process is taken to be handled by somebody (otherwise the simulation ends)."
  },
  {
   "property": "C70",
   "status": "proved",
   "theorems": [
    "Verif.Wgs.c70_vertical",
    "Verif.Wgs.c70_surface",
    "Verif.Wgs.c70_normal",
    "Verif.Wgs.c70_altitude",
    "Verif.Wgs.c70_back",
    "Verif.Wgs.c70_back_pole",
    "Verif.Wgs.c70_forth",
    "Verif.Wgs.c70_centre"
   ],
   "note": "Real numbers for floats. The closed formula (Heikkinen) is shown to give the foot of the perpendicular by factoring the quartic. c70_centre shows why a limit is needed: the centre itself is not recovered."
  },
  {
   "property": "C71",
   "status": "partial",
   "theorems": [
    "Verif.Geod.c71_inverse",
    "Verif.Geod.c71_answers",
    "Verif.Geod.c71_symmetric",
    "Verif.Geod.c71_same",
    "Verif.Geod.c71_bearing",
    "Verif.Geod.c71_north",
    "Verif.Geod.c71_equator",
    "Verif.Geod.c71_equator_ways",
    "Verif.Geod.c71_equator_exact",
    "Verif.Geod.c71_short",
    "Verif.Geod.c71_antipodal",
    "Verif.Geod.c71_direct",
    "Verif.Geod.c71_direct_partial",
    "Verif.Geod.c71_zero",
    "Verif.Geod.c71_found",
    "Verif.Geod.c71_linspace",
    "Verif.Geod.c71_linspace_ok",
    "Verif.Geod.c71_circle",
    "Verif.Geod.c71_ecef_linspace",
    "Verif.Geod.c71_ecef_and_geo"
   ],
   "note": "Real numbers for floats. Whenever distance_and_bearing answers, the answer is right (c71_inverse); it answers within 125 iterations for all places at least 300 km from being opposite to each other (c71_answers), and never for some pairs near the antipode (c71_antipodal); the line is straight and less than half a turn, and no path at all is shorter by more than the cube of the distance over 9.6e14 m^2 (1.05 m for 100 km, c71_short); that it is the shortest one is not shown beyond that. Destinations are right to micrometres on meridians, from the poles and along the equator, where they are exact (c71_equator_exact); elsewhere only to 14 m, because the code multiplies by sin_alpha instead of sin_sigma: c71_zero shows that going nowhere moves by more than 4 m. ecef_linspace never returns."
  },
  {
   "property": "C72",
   "status": "partial",
   "theorems": [
    "Verif.Subdiv.c72_kinds",
    "Verif.Subdiv.c72_hits",
    "Verif.Subdiv.c72_noticed",
    "Verif.Subdiv.c72_one_stretch",
    "Verif.Subdiv.c72_level",
    "Verif.Subdiv.c72_missed",
    "Verif.Subdiv.c72_answers_partial",
    "Verif.Subdiv.c72_cancels"
   ],
   "note": "Real numbers for floats. Everything reported is right (c72_hits, c72_level), the kinds are those of the samples (c72_kinds) and stays of 9261 m or more are noticed (c72_noticed), whenever the function returns. Violated: shorter stays can fall between the samples, c72_missed shows a mover passing over the sensor unnoticed. It is shown to return on level legs of 1157.5 m or more whose first cartesian coordinate keeps its sign and does not increase, or increases at 1e-7 or more (c72_answers_partial); it raises if the ends cancel in that coordinate (c72_cancels). Not shown: when it raises on the legs in between (C45 and C56 do for any earth)."
  },
  {
   "property": "C73",
   "status": "proved",
   "theorems": [
    "Verif.Letters.c73_direct",
    "Verif.Letters.c73_routed",
    "Verif.Letters.c73_duration",
    "Verif.Letters.c73_order",
    "Verif.Letters.c73_true",
    "Verif.Letters.c73_off",
    "Verif.Letters.c73_harmless"
   ],
   "note": "For point to point and routing table managers. Users are supposed not to change the fields of a Message while it is under way. c73_direct, c73_routed and c73_order are for logging on from the start; c73_true, c73_off and c73_harmless for any switching on and off."
  },
  {
   "property": "C74",
   "status": "partial",
   "theorems": [
    "Verif.Letters.c74_envelope",
    "Verif.Letters.c74_sent_partial",
    "Verif.Letters.c74_twice",
    "Verif.Letters.c74_received",
    "Verif.Letters.c74_in_turn"
   ],
   "note": "c74_envelope is complete for what make_put writes. time_sent is right for a message object with a single transmission (c74_sent_partial). Violated: an object sent twice is stamped again after it was received (c74_twice), and time_received is never set (c74_received)."
  },
  {
   "property": "C75",
   "status": "partial",
   "theorems": [
    "Verif.Drive.c75_rehearsal",
    "Verif.Drive.c75_known",
    "Verif.Drive.c75_transparent_partial",
    "Verif.Drive.c75_seen_partial",
    "Verif.Drive.c75_seen_spherical_partial",
    "Verif.Drive.c75_hidden_shown",
    "Verif.Drive.c75_two_states",
    "Verif.Drive.c75_overrun"
   ],
   "note": "c75_rehearsal and c75_known (for proper use) are complete. Motions are started and ended as without a manager if actors are used properly (c75_transparent_partial). Otherwise violated: a motion during which the actor was hidden and shown cannot be ended (c75_hidden_shown), a second location state cannot be used (c75_two_states), and after a motion that ran past its end the next one cannot be started (c75_overrun). Sensors see cartesian actors where they are (c75_seen_partial), and actors on the spherical earth with the analytical model (c75_seen_spherical_partial), under the conditions of C18 and C43, which are necessary (see there)."
  },
  {
   "property": "C76",
   "status": "partial",
   "theorems": [
    "Verif.Patrol.c76_checked",
    "Verif.Patrol.c76_shown",
    "Verif.Patrol.c76_particular",
    "Verif.Patrol.c76_only_looks_at",
    "Verif.Patrol.c76_given",
    "Verif.Patrol.c76_watched",
    "Verif.Patrol.c76_undisturbed",
    "Verif.Patrol.c76_delay",
    "Verif.Patrol.c76_check_ends_well",
    "Verif.Patrol.c76_position_partial",
    "Verif.Patrol.c76_noticed_partial",
    "Verif.Patrol.c76_position_spherical_partial",
    "Verif.Patrol.c76_noticed_spherical_partial",
    "Verif.Patrol.c76_position_wgs84_partial",
    "Verif.Patrol.c76_noticed_wgs84_partial",
    "Verif.Patrol.c76_stopped_unseen",
    "Verif.Patrol.c76_second_state",
    "Verif.Patrol.c76_overrun",
    "Verif.Patrol.c76_clone_shown"
   ],
   "note": "c76_checked, c76_shown, c76_particular, c76_undisturbed, c76_delay and c76_check_ends_well are complete. That the location checked is the one reached at the commanded speed, and that actors are noticed within a timestep, is proved for actors with one location state before the end of the way: cartesian ones (c76_position_partial, c76_noticed_partial), and geodetic ones on the spherical earth, where the straight line through space to the place on the great circle decides (c76_position_spherical_partial, c76_noticed_spherical_partial), or on the WGS84 ellipsoid, to the 14 m of C18 (c76_position_wgs84_partial, c76_noticed_wgs84_partial). Otherwise violated: an actor that stops between two checks is not noticed (c76_stopped_unseen), of several location states the wrong one is watched (c76_second_state), a motion past its end ends all checks (c76_overrun), a clone cannot be made detectable (c76_clone_shown)."
  },
  {
   "property": "C77",
   "status": "partial",
   "theorems": [
    "Verif.Predict.c77_predicts_partial",
    "Verif.Predict.c77_outcome_partial",
    "Verif.Predict.c77_end_partial",
    "Verif.Predict.c77_by_then_partial",
    "Verif.Predict.c77_linear",
    "Verif.Predict.c77_moving",
    "Verif.Predict.c77_moving_understudy",
    "Verif.Predict.c77_both",
    "Verif.Predict.c77_flight",
    "Verif.Predict.c77_late",
    "Verif.Predict.c77_understudy",
    "Verif.Predict.c77_active",
    "Verif.Predict.c77_locked",
    "Verif.Predict.c77_routine_clock",
    "Verif.Predict.c77_routine_value",
    "Verif.Predict.c77_again",
    "Verif.Predict.c77_nothing",
    "Verif.Predict.c77_below",
    "Verif.Predict.c77_left"
   ],
   "note": "Proved for every code that, in the rehearsal, does not use the actor or the clock in a routine after time has passed there, does not yield an event again, makes no multi-event of nothing, and asks only events directly below the last one yielded whether they are complete (`Plain`). Each of these is needed: c77_routine_clock and c77_routine_value (the rehearsal passes the time of a routine only at its end), c77_again (a Wait waited for twice takes twice the time in the rehearsal), c77_nothing, c77_below, c77_left (events that are complete in the simulation are not in the rehearsal). c77_linear and c77_understudy show that actors with plain, linear changing and shared linear changing states, and their clones when no state is active, are as the theorems ask, c77_moving those with a location that moves (cartesian or geodetic, until a deactivation raises; c77_late shows that then the reads of others do matter), c77_both actors with several such states; c77_flight is a whole flight along waypoints, planned with waypoint_time_and_dist and flown among others who look; a state that is active when the rehearsal begins does not change there (c77_active), and one locked by another task can be activated there (c77_locked); states that others share or record histories are not compared."
  },
  {
   "property": "C78",
   "status": "partial",
   "theorems": [
    "Verif.Plan.c78_predicts_partial",
    "Verif.Plan.c78_by_then_partial",
    "Verif.Plan.c78_path_partial",
    "Verif.Plan.c78_listed_partial",
    "Verif.Plan.c78_desk",
    "Verif.Plan.c78_queue",
    "Verif.Plan.c78_queued",
    "Verif.Plan.c78_unchecked",
    "Verif.Plan.c78_looks"
   ],
   "note": "Proved for networks whose tasks are rehearsed as C77 asks (`Plain`), whose decisions are rehearsed as they are made (`Honest`), whose listed tasks are allowed one after the other (`Feasible`), and where either the path begins with an empty queue and one task (c78_path_partial; tasks may use the queue) or the listed tasks are those queued and tasks do not look at the queue (c78_listed_partial); both are instances of c78_by_then_partial through c78_desk and c78_queue. The guards are needed: c78_queued (a task both listed and queued is rehearsed twice and executed once), c78_unchecked (the loop executes a queued task that the rehearsal refuses), c78_looks (listed tasks are not in the queue of the rehearsal). Interruptions are not compared: a rehearsal has none."
  },
  {
   "property": "C79",
   "status": "partial",
   "theorems": [
    "Verif.Proxy.c79_values_partial",
    "Verif.Proxy.c79_apart_partial",
    "Verif.Proxy.c79_live",
    "Verif.Proxy.c79_dictionaries",
    "Verif.Proxy.c79_shared",
    "Verif.Proxy.c79_proxies_differ",
    "Verif.Proxy.c79_ignored",
    "Verif.Proxy.c79_clone_resets",
    "Verif.Proxy.c79_refused_stays"
   ],
   "note": "c79_values_partial: a heap of objects with proxies answers every operation, and records, as a store of values does, under the guard `Fine` at each step. Without guards: proxies of one state agree (c79_live) and dictionary states never share (c79_dictionaries). The claim fails as a whole, and each part of the guard is needed: a data object given to two actors is shared and the second's history misses the write (c79_shared); a proxy of a dictionary equals no proxy, not even itself (c79_proxies_differ); writing to a name that is no field is ignored (c79_ignored); a clone resets fields with init=False, and inherited fields cannot be written (c79_clone_resets); a refused value stays in the dictionary, unrecorded, and prevents cloning (c79_refused_stays). Writes to the object behind a dataclass state, which the program still has, change the state without being recorded; that is in the reference, as is that the history of the keys of a clone begins with the clone."
  },
  {
   "property": "C80",
   "status": "partial",
   "theorems": [
    "Verif.Orders.c80_deactivate_all",
    "Verif.Orders.c80_actor",
    "Verif.Orders.c80_one_fails",
    "Verif.Orders.Nucleus.c80_nucleus",
    "Verif.Orders.Nucleus.c80_change_fails",
    "Verif.Orders.Nucleus.c80_interrupt_order",
    "Verif.Orders.Nucleus.c80_interrupted_before",
    "Verif.Orders.Routing.c80_route",
    "Verif.Orders.Routing.c80_all_up",
    "Verif.Orders.Routing.c80_failed_nodes",
    "Verif.Orders.Routing.c80_which_way",
    "Verif.Orders.Routing.c80_arrives",
    "Verif.Orders.Build.c80_made_partial",
    "Verif.Orders.Build.c80_built_partial",
    "Verif.Orders.Build.c80_one_draw",
    "Verif.Orders.Build.c80_two_draws",
    "Verif.Orders.Ctx.c80_groups",
    "Verif.Orders.Ctx.c80_groups_equal",
    "Verif.Orders.Stepped.c80_stepped",
    "Verif.Orders.Stepped.c80_stepped_answers",
    "Verif.Orders.Stepped.c80_stepped_order",
    "Verif.Orders.Queued.c80_queued",
    "Verif.Orders.Queued.c80_queued_answers",
    "Verif.Orders.Queued.c80_queued_order"
   ],
   "note": "Two histories that differ only in the orders of the sets end alike: actors (c80_actor), nuclei while no notification fails (c80_nucleus), contexts and groups (c80_groups), both motion managers (c80_stepped, c80_queued), building actors with at most one state filled at random (c80_built_partial, c80_one_draw), and routes have the same length (c80_route). The claim fails as a whole, with witnesses: which states are still active after a deactivation that raised (c80_one_fails), which networks were interrupted first or before a notification raised (c80_interrupt_order, c80_interrupted_before), which route of several of the same length is taken and, with failing links, whether the message arrives (c80_which_way, c80_arrives), which state gets which random number (c80_two_draws), groups of classes that define == (c80_groups_equal), which sensor is told first that an object hides (c80_stepped_order, c80_queued_order)."
  },
  {
   "property": "C81",
   "status": "proved",
   "theorems": [
    "Verif.Snap.c81_recorded",
    "Verif.Snap.c81_snapshot",
    "Verif.Snap.c81_live",
    "Verif.Snap.c81_harmless",
    "Verif.Snap.c81_changes",
    "Verif.Snap.c81_taken",
    "Verif.Snap.c81_list"
   ],
   "note": "For all programs over all graphs of objects. Whoever takes the entry out of the list of get_recorded_data, or changes this list, changes the record (c81_taken, c81_list), as the statement says: the guards are needed. Python's deepcopy is assumed to make a new isomorphic graph of objects or to raise."
  },
  {
   "property": "C82",
   "status": "partial",
   "theorems": [
    "Verif.Subdiv.Wgs84.c82_kinds",
    "Verif.Subdiv.Wgs84.c82_hits_partial",
    "Verif.Subdiv.Wgs84.c82_noticed",
    "Verif.Subdiv.Wgs84.c82_throughout",
    "Verif.Subdiv.Wgs84.c82_nowhere",
    "Verif.Subdiv.Wgs84.c82_antipodal",
    "Verif.Subdiv.Wgs84.c82_short",
    "Verif.Subdiv.Wgs84.c82_equator",
    "Verif.Subdiv.Wgs84.c82_times_partial"
   ],
   "note": "Real numbers for floats. Whenever the function answers, the kinds are those of places within 14.01 m of the leg (c82_kinds) and everything reported is right (c82_hits_partial); on legs of up to 1000 km the mover is at the location at the time reported, to 101 m and the cube of the length over 9.4e14 m^2 (c82_times_partial); on longer legs that is not shown (the time is that of a geodesic from the start to the location; that no two geodesics that long lead there is not shown). Along the equator c82_equator shows that level legs of 1157.51 m or more get an answer and that the times are right as well. c82_noticed, c82_throughout and c82_nowhere are complete. Violated: it raises on legs between nearly opposite places (c82_antipodal) and on legs shorter than 289.375 m (c82_short)."
  }
 ]
}