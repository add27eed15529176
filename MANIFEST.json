{
 "claims": [
  {
   "property": "C01",
   "status": "partial",
   "theorems": [
    "Verif.Sched.ready_waiting_disjoint",
    "Verif.Sched.json_ready_waiting_violated"
   ],
   "note": "Proved for the computed sets in every mode. The JSON sent to the client merges cells with type errors into the waiting list, so the client can see one cell as ready and waiting: proved counterexample."
  },
  {
   "property": "C02",
   "status": "proved",
   "theorems": [
    "Verif.Sched.dag_waiting_exact",
    "Verif.Sched.compute_terminates"
   ],
   "note": ""
  },
  {
   "property": "C03",
   "status": "proved",
   "theorems": [
    "Verif.Sched.in_order_progress",
    "Verif.Sched.any_order_deadlock_violated"
   ],
   "note": "Proved for in-order semantics; the counterexample shows that without in-order semantics a dependency cycle blocks every cell."
  },
  {
   "property": "C04",
   "status": "proved",
   "theorems": [
    "Verif.Sched.new_ready_forward"
   ],
   "note": ""
  },
  {
   "property": "C05",
   "status": "partial",
   "theorems": [
    "Verif.Sched.waiter_links_exact_partial",
    "Verif.Sched.waiter_links_sound",
    "Verif.Sched.waiter_links_only_waiting",
    "Verif.Sched.waiter_links_violated",
    "Verif.Sched.compute_terminates"
   ],
   "note": "Exact when no waiting cell is its own maker; with self makers (liveness schedule, any order, a cell overwriting the stale symbol it reads) the loop stops early: proved counterexample. Soundness and termination hold always."
  },
  {
   "property": "C06",
   "status": "proved",
   "theorems": [
    "Verif.Sched.ready_makers_inverse"
   ],
   "note": ""
  },
  {
   "property": "C07",
   "status": "proved",
   "theorems": [
    "Verif.Sched.ready_makers_above"
   ],
   "note": ""
  },
  {
   "property": "C08",
   "status": "proved",
   "theorems": [
    "Verif.Sched.reported_graph",
    "Verif.Sched.reported_graph_acyclic"
   ],
   "note": ""
  },
  {
   "property": "C09",
   "status": "proved",
   "theorems": [
    "Verif.Sched.latest_parent_table",
    "Verif.Sched.readiness_never_raises",
    "Verif.Sched.reported_graph",
    "Verif.Sched.compute_terminates"
   ],
   "note": ""
  },
  {
   "property": "C10",
   "status": "proved",
   "theorems": [
    "Verif.Sched.stale_indexes_exact",
    "Verif.Sched.stale_indexes_transpose"
   ],
   "note": ""
  },
  {
   "property": "C11",
   "status": "partial",
   "theorems": [
    "Verif.Edges.edges_symmetric_partial",
    "Verif.Edges.edges_symmetric_violated"
   ],
   "note": "Holds in every history whose self edges are recorded while the previous version of the cell is intact. The second check after a run (shell/interactiveshell.py 698) records self edges after the clean-up, and then the child entry is missing: proved counterexample."
  },
  {
   "property": "C12",
   "status": "partial",
   "theorems": [
    "Verif.Edges.no_self_parent",
    "Verif.Edges.no_two_cycle_partial",
    "Verif.Edges.two_cycle_violated"
   ],
   "note": "Self edges never arise. Two-cycles are excluded under the same condition as C11; otherwise a proved counterexample."
  },
  {
   "property": "C13",
   "status": "proved",
   "theorems": [
    "Verif.Slice.slice_dependency_closed",
    "Verif.Slice.slice_contains_latest_visible_version"
   ],
   "note": ""
  },
  {
   "property": "C14",
   "status": "proved",
   "theorems": [
    "Verif.Slice.slice_minimal"
   ],
   "note": ""
  },
  {
   "property": "C15",
   "status": "proved",
   "theorems": [
    "Verif.Slice.slice_no_future",
    "Verif.Slice.multi_slice_no_future"
   ],
   "note": ""
  },
  {
   "property": "C16",
   "status": "proved",
   "theorems": [
    "Verif.Slice.slice_sorted_nodup"
   ],
   "note": ""
  },
  {
   "property": "C17",
   "status": "proved",
   "theorems": [
    "Verif.Slice.slice_union",
    "Verif.Slice.slice_seed_order_irrelevant",
    "Verif.Slice.slice_idempotent",
    "Verif.Slice.slice_seed_only"
   ],
   "note": ""
  },
  {
   "property": "C18",
   "status": "proved",
   "theorems": [
    "Verif.Slice.slice_blocks",
    "Verif.Slice.slice_text_without_headers",
    "Verif.Slice.slice_text_with_headers",
    "Verif.Slice.blacken_keeps_blocks",
    "Verif.Slice.slice_text_ends"
   ],
   "note": ""
  },
  {
   "property": "C19",
   "status": "proved",
   "theorems": [
    "Verif.Slice.memoized_seeds_redirected"
   ],
   "note": ""
  },
  {
   "property": "C20",
   "status": "partial",
   "theorems": [
    "Verif.Registry.exec_counters_partial",
    "Verif.Registry.exec_counters_violated"
   ],
   "note": "Holds for every history in which runs that take their number from the host find it ahead of the numbers given out. A run with store_history=False breaks this: proved counterexample with two executions under one counter."
  },
  {
   "property": "C21",
   "status": "partial",
   "theorems": [
    "Verif.Registry.Pos.at_position_exact",
    "Verif.Registry.Pos.vanished_last",
    "Verif.Registry.Pos.iterate_exact_partial",
    "Verif.Registry.Pos.iterate_violated"
   ],
   "note": "Lookup by position and the place of vanished cells hold in full. Iteration holds when all cells of the report were reported before and no check ran since; otherwise proved counterexamples."
  },
  {
   "property": "C22",
   "status": "partial",
   "theorems": [
    "Verif.Registry.Ren.rename_graph_partial",
    "Verif.Registry.Ren.rename_violated"
   ],
   "note": "Holds for the enabled contexts, current versions, positions, reactive tags and the id lookup. Disabled contexts, older versions of neighbours and the index from positions to cells keep the old id: proved counterexamples."
  },
  {
   "property": "C23",
   "status": "partial",
   "theorems": [
    "Verif.ListNs.insert_follows_partial",
    "Verif.ListNs.insert_violated"
   ],
   "note": "Holds for indices from 0 to the length and inserted objects with at most one name. Negative indices, indices beyond the end and objects with two names: proved counterexamples."
  },
  {
   "property": "C24",
   "status": "partial",
   "theorems": [
    "Verif.ListNs.delete_follows_partial",
    "Verif.ListNs.remove_follows",
    "Verif.ListNs.remove_absent",
    "Verif.ListNs.delete_violated"
   ],
   "note": "remove(v) holds in full, del and pop hold for indices from -1 up as long as no symbol has a negative name. Other cases: proved counterexamples."
  },
  {
   "property": "C25",
   "status": "partial",
   "theorems": [
    "Verif.Memo.memo_hit_partial",
    "Verif.Memo.memo_violated"
   ],
   "note": "Proved for symbols the reused run read and did not itself update, and that are no imports. Violated (memo_violated): symbols a cell both reads and updates are no inputs; imports are never compared; an object changed by an unmemoized cell; an array changed in place; a list against a tuple."
  },
  {
   "property": "C26",
   "status": "partial",
   "theorems": [
    "Verif.Memo.comparable_sound_partial",
    "Verif.Memo.comparable_sound_arrays_partial",
    "Verif.Memo.comparable_violated",
    "Verif.Memo.pyEq_set_iff",
    "Verif.Memo.pyEq_dict_iff",
    "Verif.Memo.pyEq_list_iff"
   ],
   "note": "Proved for values whose lists, tuples and dictionaries stand against their own kind, and where arrays stand against arrays of the same length, in containers of the same lengths, and still hold what they held. Violated (comparable_violated): list against tuple, dictionary against list of pairs, zip truncation next to an array, broadcasting, arrays kept by reference; raises on sets of tuples and on dictionaries with unorderable keys."
  },
  {
   "property": "C27",
   "status": "proved",
   "theorems": [
    "Verif.Sym.edges_mutual"
   ],
   "note": ""
  },
  {
   "property": "C28",
   "status": "partial",
   "theorems": [
    "Verif.Sym.overwrite_partial",
    "Verif.Sym.augment_exact",
    "Verif.Sym.overwrite_violated"
   ],
   "note": "The augmenting half is proved. An overwriting assignment keeps the old dependencies if the symbol occurs on the right-hand side or a right-hand side symbol depends on it directly: proved counterexamples."
  },
  {
   "property": "C29",
   "status": "partial",
   "theorems": [
    "Verif.Sym.gc_exact",
    "Verif.Sym.gc_alias_partial",
    "Verif.Sym.alias_violated"
   ],
   "note": "Edges, scopes and surviving dependencies: proved. Alias entries: proved unless a mutation put members of another object into an alias set; counterexample proved."
  },
  {
   "property": "C30",
   "status": "partial",
   "theorems": [
    "Verif.Sym.alias_complete",
    "Verif.Sym.alias_exact_partial",
    "Verif.Sym.alias_violated"
   ],
   "note": "Every symbol is listed under its object, always. The converse fails after a mutation of a container whose columns and attributes share an object: proved counterexample; it holds otherwise."
  },
  {
   "property": "C31",
   "status": "proved",
   "theorems": [
    "Verif.Propagate.propagation_terminates"
   ],
   "note": "Recursion depth is bounded by twice the number of symbols; the depth limit of the Python interpreter is not modelled."
  },
  {
   "property": "C32",
   "status": "partial",
   "theorems": [
    "Verif.Propagate.marks_spare",
    "Verif.Propagate.rhs_not_waiting_partial",
    "Verif.Propagate.rhs_violated"
   ],
   "note": "The mark itself is never set. A container on the right-hand side one of whose elements uses the updated symbol becomes stale through its namespace: proved counterexample; symbols whose object contains no symbols stay fresh."
  },
  {
   "property": "C33",
   "status": "partial",
   "theorems": [
    "Verif.Propagate.users_told_partial",
    "Verif.Propagate.users_violated",
    "Verif.Propagate.marks_reachable",
    "Verif.Propagate.updated_exact"
   ],
   "note": "Holds if alias sets contain only symbols of their object (see C30); otherwise a proved counterexample."
  },
  {
   "property": "C34",
   "status": "partial",
   "theorems": [
    "Verif.Live.live_sound_partial",
    "Verif.Live.live_violated_chain_on_comparison",
    "Verif.Live.live_violated_curried",
    "Verif.Live.live_violated_fstring",
    "Verif.Live.live_violated_conditional",
    "Verif.Live.live_violated_comprehension_target",
    "Verif.Live.live_violated_class_body",
    "Verif.Live.live_violated_keyword_default",
    "Verif.Live.live_violated_walrus_argument",
    "Verif.Live.live_violated_del",
    "Verif.Live.live_violated_quasiquotation",
    "Verif.Live.live_violated_noop",
    "Verif.Live.violated_walrus_in_and",
    "Verif.Live.violated_lambda_default",
    "Verif.Live.violated_tuple_target",
    "Verif.Live.violated_annotation_only",
    "Verif.Live.violated_try",
    "Verif.Live.violated_loop_else",
    "Verif.Live.violated_suppress"
   ],
   "note": "Proved by structural induction for all code outside the constructs of the counterexamples, each of which is proved to make the analysis miss a variable. What happens inside called functions is C62 and C63."
  },
  {
   "property": "C35",
   "status": "partial",
   "theorems": [
    "Verif.Live.dead_sound_partial",
    "Verif.Live.violated_walrus_in_and",
    "Verif.Live.violated_lambda_default",
    "Verif.Live.violated_tuple_target",
    "Verif.Live.violated_annotation_only",
    "Verif.Live.violated_try",
    "Verif.Live.violated_loop_else",
    "Verif.Live.violated_suppress"
   ],
   "note": "As for C34; the counterexamples report a variable as assigned that a path does not assign."
  },
  {
   "property": "C36",
   "status": "partial",
   "theorems": [
    "Verif.Live.analysis_returns_partial",
    "Verif.Live.analysis_violated_recursion",
    "Verif.Live.analysis_violated_keyword_only",
    "Verif.Live.Work.call_chain_terminates"
   ],
   "note": "Following calls into other cells always ends. The visitor returns for all code without recursive functions and keyword-only parameters; a cell that defines and calls a recursive function, or one with keyword-only parameters, makes it fail: proved."
  },
  {
   "property": "C37",
   "status": "partial",
   "theorems": [
    "Verif.Comm.responses_at_most_one",
    "Verif.Comm.response_partial",
    "Verif.Comm.unknown_no_response",
    "Verif.Comm.register_keeps",
    "Verif.Comm.response_violated_type",
    "Verif.Comm.response_violated_dropped",
    "Verif.Comm.response_violated_junk",
    "Verif.Comm.response_violated_unserialisable",
    "Verif.Comm.response_violated_interrupt"
   ],
   "note": "At most one well-formed response: proved in full. Exactly one for handlers that return a serialisable dictionary or nothing or raise an Exception. Violated: the type of the answer to notify_content_changed is compute_exec_schedule; no answer for requests dropped while a recomputation is pending, for results that are no dictionaries or not serialisable, and for interrupts."
  },
  {
   "property": "C38",
   "status": "partial",
   "theorems": [
    "Verif.Comm.active_cleared_partial",
    "Verif.Comm.active_cleared_internal",
    "Verif.Comm.active_violated_dropped"
   ],
   "note": "For every request that reaches the handler, every failure point included. A request that is dropped because a delayed recomputation is pending leaves the marker: proved counterexample."
  },
  {
   "property": "C39",
   "status": "partial",
   "theorems": [
    "Verif.Debounce.executions_exact",
    "Verif.Debounce.burst_not_split",
    "Verif.Debounce.burst_ends",
    "Verif.Debounce.fire_enabled",
    "Verif.Debounce.flag_sound",
    "Verif.Debounce.flag_complete_partial",
    "Verif.Debounce.flag_violated_running",
    "Verif.Debounce.flag_violated_died"
   ],
   "note": "Executions: proved for every interleaving. The result flag is right when true; a new burst that starts while the function runs, or after a run that raised, is reported as not new: proved counterexamples."
  },
  {
   "property": "C40",
   "status": "partial",
   "theorems": [
    "Verif.Comm.Placeholder.placeholder_ids",
    "Verif.Comm.Placeholder.placeholder_exact",
    "Verif.Comm.Placeholder.active_id_violated",
    "Verif.Comm.Placeholder.assign_violated"
   ],
   "note": "For content reports proved in full, with the exact assignment, under the assumption that ids made by the kernel and by the client differ. A schedule request however gives the active cell's id to the last placeholder even if it is known: proved counterexample."
  },
  {
   "property": "C41",
   "status": "partial",
   "theorems": [
    "Verif.Settings.invalid_unchanged_partial",
    "Verif.Settings.valid_sets",
    "Verif.Settings.unknown_command_partial",
    "Verif.Settings.invalid_violated_mode",
    "Verif.Settings.invalid_violated_prefix",
    "Verif.Settings.unknown_command_violated"
   ],
   "note": "Holds for schedule, direction and reactivity values that do not begin like a recognised one. Every unrecognised mode, even the value printed by the usage message, sets the reactive mode; directions beginning with `in` or `any`, schedules beginning with `dag` and so on are accepted: proved counterexamples."
  },
  {
   "property": "C42",
   "status": "partial",
   "theorems": [
    "Verif.Registry.tag_lookup_complete",
    "Verif.Registry.tag_lookup_exact_partial",
    "Verif.Registry.tag_lookup_violated"
   ],
   "note": "Current cells carrying a tag are always found. Nothing else is found as long as there is no untagging, renaming or tagging of older versions; each of the three has a proved counterexample."
  },
  {
   "property": "C43",
   "status": "proved",
   "theorems": [
    "Verif.Interrupt.interrupt_exact",
    "Verif.Interrupt.others_unchanged",
    "Verif.Interrupt.invalid_unchanged",
    "Verif.Interrupt.interrupts_bounded"
   ],
   "note": "For every handler type set and every sequence of interrupts. How the tracing library wraps handlers is assumed."
  },
  {
   "property": "C44",
   "status": "partial",
   "theorems": [
    "Verif.Literal.literal_partial",
    "Verif.Literal.literal_violated"
   ],
   "note": "Holds if the starred expression gives at least one element or comes last. If it is empty and another element follows, that element is attributed to the starred expression: proved counterexample."
  },
  {
   "property": "C45",
   "status": "proved",
   "theorems": [
    "Verif.Lift.rdeps_exact",
    "Verif.Lift.rusers_exact",
    "Verif.Lift.rdeps_rusers_dual",
    "Verif.Lift.deps_users_dual",
    "Verif.Lift.finite_symbols"
   ],
   "note": "For every reachable symbol graph, cyclic ones included, and every pair of symbols that have not been garbage collected. Python's bound on the recursion depth is not modelled."
  },
  {
   "property": "C46",
   "status": "proved",
   "theorems": [
    "Verif.Dag.dag_mutual",
    "Verif.Dag.dag_exact",
    "Verif.Dag.dag_outputs",
    "Verif.Dag.dag_raises_iff"
   ],
   "note": "For arbitrary tables of symbols, versions and uses. The types of symbols are left out; which symbols are top level and which are aliases are parameters."
  },
  {
   "property": "C47",
   "status": "partial",
   "theorems": [
    "Verif.Scoped.restored_partial",
    "Verif.Scoped.restored_any_order",
    "Verif.Scoped.index_violated"
   ],
   "note": "Proved for every program with nested scopes and exceptions, against lexical scoping. Under in-order semantics the index from positions to cells is not restored: proved counterexample."
  },
  {
   "property": "C48",
   "status": "proved",
   "theorems": [
    "Verif.Clock.order_strict_total",
    "Verif.Clock.cell_precedes",
    "Verif.Clock.eq_other",
    "Verif.Clock.max_exact"
   ],
   "note": ""
  },
  {
   "property": "C49",
   "status": "proved",
   "theorems": [
    "Verif.Store.closure_exact"
   ],
   "note": "JavaScript's stack depth is fuel; two more than the number of cells is enough, on cyclic graphs too."
  },
  {
   "property": "C50",
   "status": "partial",
   "theorems": [
    "Verif.Store.any_order_partial",
    "Verif.Store.any_order_violated"
   ],
   "note": "Proved for requested code cells, with respect to the transitive closure of the graph. A Markdown cell among several requested cells makes the comparison NaN, and the order is left to the implementation of sort: proved."
  },
  {
   "property": "C51",
   "status": "partial",
   "theorems": [
    "Verif.Output.displays_forwarded",
    "Verif.Output.text_forwarded_partial",
    "Verif.Output.restored_partial",
    "Verif.Output.cell_output_partial",
    "Verif.Output.assign_breaks",
    "Verif.Output.assign_loses",
    "Verif.Output.thread_violated",
    "Verif.Output.nested_violated"
   ],
   "note": "Forwarding of displays is proved in full. Forwarding of text is proved for programs that do not assign sys.stdout or sys.stderr; replacing sys.stdout alone makes every later write to sys.stderr recurse without end: proved. Recording and restoring are proved for runs that are not nested and for the main thread, with proved counterexamples otherwise."
  },
  {
   "property": "C52",
   "status": "partial",
   "theorems": [
    "Verif.Lookup.lookup_visible_partial",
    "Verif.Lookup.lookup_class",
    "Verif.Lookup.lookup_violated"
   ],
   "note": "For code that is not directly in the body of a class. There only the body itself is searched, so that `class C: y = x` does not find x: proved counterexample."
  },
  {
   "property": "C53",
   "status": "partial",
   "theorems": [
    "Verif.Lookup.chain_resolved_partial",
    "Verif.Lookup.fully_iff",
    "Verif.Lookup.chain_violated",
    "Verif.Lookup.chain_violated_missing"
   ],
   "note": "For links that no attribute and element of one name make ambiguous. Otherwise d['x'] resolves to d.x: proved counterexample."
  },
  {
   "property": "C54",
   "status": "proved",
   "theorems": [
    "Verif.Sched.unsafe_order_exact"
   ],
   "note": ""
  },
  {
   "property": "C55",
   "status": "proved",
   "theorems": [
    "Verif.Slice.slice_terminates_and_raises_iff"
   ],
   "note": ""
  },
  {
   "property": "C56",
   "status": "proved",
   "theorems": [
    "Verif.Sched.stale_parents_exact"
   ],
   "note": ""
  },
  {
   "property": "C57",
   "status": "proved",
   "theorems": [
    "Verif.Edges.no_orphan_children"
   ],
   "note": ""
  },
  {
   "property": "C58",
   "status": "proved",
   "theorems": [
    "Verif.Edges.stmt_override_renames"
   ],
   "note": ""
  },
  {
   "property": "C59",
   "status": "partial",
   "theorems": [
    "Verif.ListNs.lookup_follows_partial",
    "Verif.ListNs.negative_name_violated"
   ],
   "note": "Holds as long as no symbol has a negative name; an assignment to lst[-1] creates one: proved counterexample."
  },
  {
   "property": "C60",
   "status": "partial",
   "theorems": [
    "Verif.Sym.name_kept_partial",
    "Verif.Sym.name_violated"
   ],
   "note": "Holds if no garbage symbol of the scope has the same name; `x = 1; del x; x = 5` and a collection lose the live x: proved counterexample."
  },
  {
   "property": "C61",
   "status": "partial",
   "theorems": [
    "Verif.Propagate.marks_exact_partial",
    "Verif.Propagate.order_violated"
   ],
   "note": "Without containers the marks after an update are characterised by reachability, hence independent of the order. With containers: proved counterexample."
  },
  {
   "property": "C62",
   "status": "partial",
   "theorems": [
    "Verif.Live.call_reports_partial"
   ],
   "note": "For bodies of the same statement forms as C34."
  },
  {
   "property": "C63",
   "status": "proved",
   "theorems": [
    "Verif.Live.Work.call_chain_exact",
    "Verif.Live.Work.call_chain_terminates"
   ],
   "note": "What one body contributes is a parameter of the model."
  },
  {
   "property": "C64",
   "status": "partial",
   "theorems": [
    "Verif.Debounce.held_back_partial",
    "Verif.Debounce.outstanding_held_back_partial",
    "Verif.Debounce.held_back_violated",
    "Verif.Debounce.outstanding_violated"
   ],
   "note": "Holds if the main thread sets the flag before the timer fires and no call arrives during a run. Otherwise proved counterexamples; in the first the client's schedule requests are dropped until the next delayed recomputation."
  },
  {
   "property": "C65",
   "status": "partial",
   "theorems": [
    "Verif.Debounce.setting_restored_partial",
    "Verif.Debounce.setting_violated",
    "Verif.Debounce.setting_violated_user"
   ],
   "note": "Holds if nothing happens during a run. Overlapping runs make the temporary setting permanent, and a choice of the user during a run is lost: proved counterexamples."
  },
  {
   "property": "C66",
   "status": "partial",
   "theorems": [
    "Verif.Settings.compatible_partial",
    "Verif.Settings.compatible_violated"
   ],
   "note": "Holds for every command that does not select a schedule; selecting the DAG schedule afterwards is accepted: proved counterexample."
  },
  {
   "property": "C67",
   "status": "partial",
   "theorems": [
    "Verif.Literal.unpack_partial",
    "Verif.Literal.unpack_violated",
    "Verif.Literal.unpack_violated_call",
    "Verif.Literal.unpack_violated_unknown"
   ],
   "note": "Holds for starred targets that receive something, elements that all have symbols, and expressions without calls for the starred target. Each exclusion is a proved counterexample."
  },
  {
   "property": "C68",
   "status": "partial",
   "theorems": [
    "Verif.Literal.dict_partial",
    "Verif.Literal.dict_violated"
   ],
   "note": "Holds for displays with distinct keys and no `**`. With repeated keys, or with a `**` entry, an item is attributed to another entry: proved counterexamples."
  },
  {
   "property": "C69",
   "status": "partial",
   "theorems": [
    "Verif.Dag.dag_reads_partial",
    "Verif.Dag.dag_acyclic_partial",
    "Verif.Dag.dag_cycle_violated"
   ],
   "note": "Proved for histories of executions. The content check of an edited cell that has not been run records static uses under the current run's time, so that two cells become parents of each other: proved counterexample."
  },
  {
   "property": "C70",
   "status": "partial",
   "theorems": [
    "Verif.Dag.dag_cells_partial",
    "Verif.Dag.dag_cells_violated"
   ],
   "note": "Proved if no symbol is created without a time. A symbol created implicitly and assigned later lists the cell -1: proved counterexample."
  },
  {
   "property": "C71",
   "status": "partial",
   "theorems": [
    "Verif.Dag.Import.import_partial",
    "Verif.Dag.Import.import_violated"
   ],
   "note": "Holds for statements that bind no name twice. `from m import a as x, b as x` and `import b as a, a.c`: proved counterexamples."
  },
  {
   "property": "C72",
   "status": "partial",
   "theorems": [
    "Verif.Scoped.offset_threads",
    "Verif.Scoped.child_violated_threads"
   ],
   "note": "Holds for offsets. Overlapping scopes of override_child_cell in two threads leave the override of the first in place: proved counterexample. Entering and leaving are taken to be atomic."
  },
  {
   "property": "C73",
   "status": "partial",
   "theorems": [
    "Verif.Clock.clock_partial",
    "Verif.Clock.Runs.runs_partial",
    "Verif.Clock.Runs.goes_back",
    "Verif.Clock.Runs.clock_claim_false"
   ],
   "note": "Over whole runs, with the numbers that create_and_track gives them: proved if no run that is kept in the history of IPython follows one that is not (Runs.runs_partial). Violated otherwise: the next kept run gets the number of the run that was not kept, and its timestamps are smaller (Runs.goes_back, Runs.clock_claim_false). clock_partial is the same for arbitrary orders of events in which no timestamp is taken between the start of a run and the reset of the tracer. The precheck runs there; that it takes no timestamps is not modelled."
  },
  {
   "property": "C74",
   "status": "partial",
   "theorems": [
    "Verif.Store.pull_exact_partial",
    "Verif.Store.pulled",
    "Verif.Store.pull_exact_violated"
   ],
   "note": "For start cells without repetition. The reactive loop passes lists with repetition, and then the loop may stop before cousins are included: proved counterexample. pulled is what holds without updates of cousins, or with repetition."
  },
  {
   "property": "C75",
   "status": "partial",
   "theorems": [
    "Verif.Store.between_partial",
    "Verif.Store.between_violated"
   ],
   "note": "With updates of cousins. Without them, a diamond has a gap: proved counterexample."
  },
  {
   "property": "C76",
   "status": "partial",
   "theorems": [
    "Verif.Store.pull_ends_partial",
    "Verif.Store.pull_ends_violated",
    "Verif.Store.pull_diverges"
   ],
   "note": "For acyclic tables of parents. Two clean cells that use each other's variables make the recursion endless: proved for every depth of stack."
  },
  {
   "property": "C77",
   "status": "proved",
   "theorems": [
    "Verif.Store.in_order"
   ],
   "note": ""
  },
  {
   "property": "C78",
   "status": "partial",
   "theorems": [
    "Verif.Client.once_partial",
    "Verif.Client.once_violated",
    "Verif.Client.once_violated_forced"
   ],
   "note": "Proved for batch mode when reactive, and for incremental mode when every schedule was computed after the execution it follows. A schedule requested before leads to a second execution; so does a cell that is both forced and in the closure of a cascading one when the kernel is not reactive: proved counterexamples."
  },
  {
   "property": "C79",
   "status": "partial",
   "theorems": [
    "Verif.Client.bounded_partial"
   ],
   "note": "Under the hypotheses of C78."
  },
  {
   "property": "C80",
   "status": "partial",
   "theorems": [
    "Verif.Client.covered_partial",
    "Verif.Client.covered_violated"
   ],
   "note": "For reactive schedules; in incremental mode without in-order semantics or strict schedules, which pass over earlier cells by design."
  },
  {
   "property": "C81",
   "status": "proved",
   "theorems": [
    "Verif.Lookup.qualified_iff"
   ],
   "note": ""
  },
  {
   "property": "C82",
   "status": "partial",
   "theorems": [
    "Verif.Output.cell_output_partial",
    "Verif.Output.cell_output_violated"
   ],
   "note": "For cells that run with the recorder. Others, such as all under syntax_transforms_only, are given the output of the cell recorded last: proved counterexample."
  },
  {
   "property": "C83",
   "status": "partial",
   "theorems": [
    "Verif.Ref.chain_named_partial",
    "Verif.Ref.chain_unknown_last",
    "Verif.Ref.chain_skips",
    "Verif.Ref.chain_loses_start",
    "Verif.Ref.chain_loses_sign",
    "Verif.Ref.chain_called_element"
   ],
   "note": "For accesses that start with a variable or a display, whose subscripts are known (the last may be unknown), and whose called parts are variables, attributes or elements with text keys. Proved counterexamples: m[i][0] is read as m[0]; f()().x and (a if b else c).x as the variable x; a[-i] as a[i]; a[0]() as a['0']()."
  },
  {
   "property": "C84",
   "status": "partial",
   "theorems": [
    "Verif.Ref.marks_partial",
    "Verif.Ref.marks_violated"
   ],
   "note": "For references in which no blocking mark follows a reactive or cascading one. In $x.$:y the blocking of y is lost: proved counterexample."
  },
  {
   "property": "C85",
   "status": "partial",
   "theorems": [
    "Verif.Ref.assigned_partial",
    "Verif.Ref.assigned_violated"
   ],
   "note": "For targets without reactive marks. $x.y = 1 counts as an assignment of x: proved counterexample."
  },
  {
   "property": "C86",
   "status": "partial",
   "theorems": [
    "Verif.Ref.eq_partial",
    "Verif.Ref.eq_violated"
   ],
   "note": "Reflexive, symmetric and consistent with the hash; transitive only over references that have both a position and a scope: proved counterexample."
  },
  {
   "property": "C87",
   "status": "partial",
   "theorems": [
    "Verif.Wait.waits_partial",
    "Verif.Wait.waits_sound_partial",
    "Verif.Wait.waits_any_order",
    "Verif.Wait.waits_violated_cycle",
    "Verif.Wait.waits_violated_moved"
   ],
   "note": "In-order: exact when no variable depends on itself and no cell is moved between an execution and the question; on any graph a positive answer is right. Proved counterexamples: variables that depend on each other (the answer depends on the order of questions) and moved cells (old answers are given again). Any-order: exact."
  },
  {
   "property": "C88",
   "status": "partial",
   "theorems": [
    "Verif.Wait.isWaiting_total_partial",
    "Verif.Wait.isWaiting_total_uncleared",
    "Verif.Wait.isWaiting_exact",
    "Verif.Wait.isWaiting_violated"
   ],
   "note": "Decided on any graph until the user clears the marks; afterwards when no waiting object contains itself through waiting parts. Otherwise the recursion does not end: proved counterexample."
  },
  {
   "property": "C89",
   "status": "partial",
   "theorems": [
    "Verif.Age.covers_partial",
    "Verif.Age.covers_violated",
    "Verif.Age.covers_violated_same"
   ],
   "note": "For updates in which members are really exchanged or mutated (EvOk.settled) and assigned objects share no parts with others (EvOk.notShared). Proved counterexamples: `x = [t]` makes t and its elements newer but not another `u = [t]`; assigning the object that x.y.z already holds makes x.y newer than x."
  },
  {
   "property": "C90",
   "status": "partial",
   "theorems": [
    "Verif.Age.update_exact_partial",
    "Verif.Age.start_exact",
    "Verif.Age.exact_violated_list",
    "Verif.Age.exact_violated_sibling"
   ],
   "note": "For updates that do not descend into the object. Proved counterexamples: `x = [t]` makes t newer; a call a.b.f() makes the unrelated a.c newer."
  },
  {
   "property": "C91",
   "status": "partial",
   "theorems": [
    "Verif.Age.names_partial",
    "Verif.Age.names_violated"
   ],
   "note": "For objects other than data frames. A column of a data frame changed in place adds df['a'] to the names of the object of df.a: proved counterexample."
  },
  {
   "property": "C92",
   "status": "proved",
   "theorems": [
    "Verif.Age.update_terminates"
   ],
   "note": "Fuel above the number of symbols is enough."
  },
  {
   "property": "C93",
   "status": "partial",
   "theorems": [
    "Verif.Ready.ready_partial",
    "Verif.Ready.ready_any_order",
    "Verif.Ready.ready_sound",
    "Verif.Ready.ready_hybrid_partial",
    "Verif.Ready.ready_violated"
   ],
   "note": "In any order exact; in order a ready cell is outdated, and exact if nothing it reads was last updated from below. Proved counterexample: an update from below hides an earlier one from above, because only the last update is looked at. Widget overrides and reloaded modules are excluded."
  },
  {
   "property": "C94",
   "status": "partial",
   "theorems": [
    "Verif.Ready.forced_partial",
    "Verif.Ready.forced_ready",
    "Verif.Ready.ready_violated"
   ],
   "note": "As C93; ready_violated covers forced cells as well."
  },
  {
   "property": "C95",
   "status": "partial",
   "theorems": [
    "Verif.Rval.deps_exact_partial",
    "Verif.Rval.deps_member_partial",
    "Verif.Rval.deps_no_member",
    "Verif.Rval.deps_violated_index",
    "Verif.Rval.deps_violated_slice",
    "Verif.Rval.deps_violated_object",
    "Verif.Rval.deps_violated_deep",
    "Verif.Rval.deps_violated_callee",
    "Verif.Rval.deps_violated_comprehension",
    "Verif.Rval.deps_violated_shadow",
    "Verif.Rval.deps_violated_star",
    "Verif.Rval.deps_violated_extra",
    "Verif.Rval.deps_violated_unrecorded"
   ],
   "note": "Exact for expressions whose accesses are recorded, start with a variable or call and have constant subscripts, and whose comprehensions use no variable twice (Good). Proved counterexamples: a[i] does not depend on i; a[1:3] + b not on a; (a + b).c not on a; f(x).a.b and f(x)(y) not on x; [x + w for x in x] not on x; [f(y) for y in r] not on a y that f returns; g(*(a + b)) not on a; [b for *a, b in xs] depends on an unrelated a; x.b that was not recorded gives no dependency, because the fallback resolves x in a mode in which nothing is resolved."
  },
  {
   "property": "C96",
   "status": "partial",
   "theorems": [
    "Verif.Rval.usages_partial",
    "Verif.Rval.usages_violated",
    "Verif.Rval.usages_violated_inner"
   ],
   "note": "As C95, without starred arguments. f(*xs) does not record the use of xs: proved counterexample."
  },
  {
   "property": "C97",
   "status": "partial",
   "theorems": [
    "Verif.Annot.args_partial",
    "Verif.Annot.args_violated_two",
    "Verif.Annot.args_violated_star",
    "Verif.Annot.args_violated_receiver",
    "Verif.Annot.args_violated_self"
   ],
   "note": "For calls without starred arguments, complete when no argument has two symbols. Proved counterexamples: f(x + y) updates only one of x and y; f(*xs, y) updates the argument of another parameter; a receiver not called self, and self in the stub of a function, lead to wrong updates or an exception."
  },
  {
   "property": "C98",
   "status": "partial",
   "theorems": [
    "Verif.Annot.choose_partial",
    "Verif.Annot.choose_violated",
    "Verif.Annot.choose_violated_order"
   ],
   "note": "If every annotated method is defined by the class it is annotated for. Annotations of inherited methods for several classes replace each other, because they are also registered by function: proved counterexamples."
  },
  {
   "property": "C99",
   "status": "partial",
   "theorems": [
    "Verif.Annot.stubs_partial",
    "Verif.Annot.stubs_sound",
    "Verif.Annot.stubs_violated_modules",
    "Verif.Annot.stubs_violated_twice"
   ],
   "note": "For module decorators with one argument and at most one stub for the class. A decorator with two modules is ignored; of two stubs for one class only the last counts: proved counterexamples."
  },
  {
   "property": "C100",
   "status": "partial",
   "theorems": [
    "Verif.Bind.bindings_recorded_partial",
    "Verif.Bind.assignment_misses_walrus",
    "Verif.Bind.loop_misses_walrus",
    "Verif.Bind.with_misses_tuple",
    "Verif.Bind.with_misses_walrus",
    "Verif.Bind.class_misses_walrus",
    "Verif.Bind.annotation_misses_walrus",
    "Verif.Bind.augmented_misses_walrus",
    "Verif.Bind.match_misses_capture",
    "Verif.Bind.import_misses_dotted",
    "Verif.Bind.import_misses_star",
    "Verif.Bind.unpacking_misses_list_after_star",
    "Verif.Bind.delete_misses_tuple",
    "Verif.Bind.delete_misses_after_walrus",
    "Verif.Bind.default_walrus_crashes",
    "Verif.Bind.base_walrus_crashes",
    "Verif.Bind.bare_annotation_invents",
    "Verif.Bind.lambda_invents",
    "Verif.Bind.not_evaluated_invents",
    "Verif.Bind.while_invents"
   ],
   "note": "For the statements described by Fine; for all others there is a proved counterexample of their kind: y = (x := 5) does not record x, `with f() as (a, b)` records nothing, names bound by case patterns, `import a.b` and `del (a, b)` are not recorded, `:=` in a default, base or decorator fails an assertion, and `:=` that was not evaluated counts when its variable has a value."
  },
  {
   "property": "C101",
   "status": "partial",
   "theorems": [
    "Verif.Bind.reads_recorded_partial",
    "Verif.Bind.only_reads_recorded_partial",
    "Verif.Bind.with_unseen",
    "Verif.Bind.call_unseen",
    "Verif.Bind.cond_unseen",
    "Verif.Bind.class_unseen",
    "Verif.Bind.annotation_unseen",
    "Verif.Bind.lambda_unseen",
    "Verif.Bind.handler_unseen",
    "Verif.Bind.while_imagined",
    "Verif.Bind.lambda_imagined"
   ],
   "note": "For the statements described by Attentive and Reserved. Proved counterexamples: `with f(x):` records no use of x, nor does f(x, (y := 1)) nor `if x:` with := in its body; class keywords, annotations, defaults of lambdas and tuples of exception types are not looked at; `while c: y = 5` records a use of y."
  },
  {
   "property": "C102",
   "status": "partial",
   "theorems": [
    "Verif.Bind.inner_first_partial",
    "Verif.Bind.order_violated"
   ],
   "note": "Bindings inside the value of another come first. f((x := 5), (y := x)) records y before x: proved counterexample."
  },
  {
   "property": "C103",
   "status": "partial",
   "theorems": [
    "Verif.Steps.dealt_with_partial",
    "Verif.Steps.cell_dealt_with_partial",
    "Verif.Steps.dealt_with_once",
    "Verif.Steps.later_iteration",
    "Verif.Steps.failed_header"
   ],
   "note": "At most once always; exactly and in order for what is run outside later iterations of loops, if no if, for or with raises before its body is entered (Regular). Proved counterexamples: `y = x` that is run in a second iteration only is never dealt with; `try: for i in f(): ... except: z = 0` where f raises deals with the loop when the handler begins."
  },
  {
   "property": "C104",
   "status": "partial",
   "theorems": [
    "Verif.Steps.noted_partial",
    "Verif.Steps.still_known",
    "Verif.Steps.only_noted",
    "Verif.Steps.loop_unnoted",
    "Verif.Steps.unnoted"
   ],
   "note": "For what is bound in a statement that is dealt with, and for later iterations if the enclosing statement of the cell assigns the variable on all paths, or reads it and it was known. Otherwise it fails: after a statement with a loop only what is found assigned in both the loop and its else part is looked at, so `for i in [1, 2]: if i == 2: y = x` leaves y as it was: proved in general (loop_unnoted) and on an example."
  },
  {
   "property": "C105",
   "status": "partial",
   "theorems": [
    "Verif.Frames.frames_exact",
    "Verif.Frames.attributed_partial",
    "Verif.Frames.not_resumed"
   ],
   "note": "The frames of the tracer are exactly those that are seen, whenever it is on: proved for all executions without generators. It is on at each statement of a seen frame, unless the statement that is run in the first frame is already finished, as in __exit__ of a with statement: proved counterexample."
  },
  {
   "property": "C106",
   "status": "partial",
   "theorems": [
    "Verif.Frames.results_partial",
    "Verif.Frames.second_return",
    "Verif.Frames.repeated_call",
    "Verif.Frames.loop_result"
   ],
   "note": "Exact if each return statement is executed at most once, no call leads to two calls of functions and no loop suspends tracing. Proved counterexamples: in `y = f()`, `z = f()` in one cell z does not depend on what f returns; list(map(f, [a, b])) depends only on the first result; a return in a later iteration of a loop is not seen."
  },
  {
   "property": "C107",
   "status": "partial",
   "theorems": [
    "Verif.Args.received_partial",
    "Verif.Args.only_received_partial",
    "Verif.Args.receiver_lost",
    "Verif.Args.default_instead",
    "Verif.Args.keyword_for_required",
    "Verif.Args.keyword_only_lost",
    "Verif.Args.compound_lost",
    "Verif.Args.receiver_shift",
    "Verif.Args.unbound_shift",
    "Verif.Args.default_rebound",
    "Verif.Args.default_of_another"
   ],
   "note": "Complete for ordinary parameters if no argument is starred, keywords are for parameters with defaults (or there are none) and the argument is a name or noted by the tracer; exact if no positional value goes to a parameter with a default. Proved counterexamples: in f(a, b) for def f(x, y=d) the parameter y depends on d and not on b; f(x=a) for the same function matches nothing; nor does f(a, k=b) for def f(x, *, k); f(a + b) makes x depend on nothing; a first parameter not called self shifts the arguments, as does C.m(obj, a); the receiver is recorded as None."
  },
  {
   "property": "C108",
   "status": "partial",
   "theorems": [
    "Verif.Args.parameter_found_partial",
    "Verif.Args.only_parameters",
    "Verif.Args.positional_only_lost",
    "Verif.Args.same_cell_lost"
   ],
   "note": "For parameters that are not positional only, in functions defined in an earlier cell. Proved in general that positional only parameters, and all parameters of functions called in the cell that defines them, are taken for variables of the same name outside."
  },
  {
   "property": "C109",
   "status": "partial",
   "theorems": [
    "Verif.Writes.written_recorded_partial",
    "Verif.Writes.parts_recorded",
    "Verif.Writes.only_written",
    "Verif.Writes.static_origin",
    "Verif.Writes.static_or_dynamic",
    "Verif.Writes.stays_dynamic",
    "Verif.Writes.element_unrecorded",
    "Verif.Writes.container_unrecorded",
    "Verif.Writes.list_unrecorded"
   ],
   "note": "Nothing else is recorded, never as both, and dynamic stays dynamic: proved in full. What is stored is recorded if it is a variable whose value has no known attributes or elements, or has some and the write is not static. Proved in general: `x[0] = 5` and `x.a = 5` are not recorded, and `x = [1, 2]` records x[0] and x[1] but not x, because the test meant for members inherited from a class is applied to the variable itself."
  },
  {
   "property": "C110",
   "status": "partial",
   "theorems": [
    "Verif.Target.recorded_partial",
    "Verif.Target.read_partial",
    "Verif.Target.nonlocal_far",
    "Verif.Target.nonlocal_unknown",
    "Verif.Target.nonlocal_in_class",
    "Verif.Target.declared_deleted",
    "Verif.Target.far_stale",
    "Verif.Target.deleted_stays",
    "Verif.Target.global_read_shadowed"
   ],
   "note": "Exact for all nestings and sequences if names declared nonlocal belong to the function just around and no name declared global or nonlocal is deleted. Proved in general: an assignment to a nonlocal variable of a function further out is recorded for the function in between; `global x; del x` in a function is not recorded; `nonlocal` in the body of a class records a global variable; and a name declared global is read from a function around that has a variable of this name."
  },
  {
   "property": "C111",
   "status": "partial",
   "theorems": [
    "Verif.Types.sound",
    "Verif.Types.tight",
    "Verif.Types.declared_partial",
    "Verif.Types.list_order",
    "Verif.Types.set_order",
    "Verif.Types.inner_misnamed",
    "Verif.Types.inner_confused",
    "Verif.Types.inner_wrong"
   ],
   "note": "The type is a type of the value and as tight as stated for all finite values: proved in full, as is the independence of order. The text stands for that type if all classes in the value are found in their modules under their own names. Proved in general that objects of a class defined inside another are declared with a name that is not that of the class, which may be that of a different class. Missing: values that contain themselves, for which the code does not return."
  },
  {
   "property": "C112",
   "status": "partial",
   "theorems": [
    "Verif.Resync.synced",
    "Verif.Resync.listed",
    "Verif.Resync.elements_right",
    "Verif.Resync.succeeds_partial",
    "Verif.Resync.others_kept",
    "Verif.Resync.element_lost",
    "Verif.Resync.empty_fails"
   ],
   "note": "Variables that count as updated by the cell get their objects and are listed exactly, and nothing wrong becomes known about elements: proved in full. It succeeds if no list with known elements is empty. Proved counterexamples: after a loop that assigns x and appends it, the symbol of lst[0] is made the one of lst[1] and lst[0] is forgotten; if the list is empty at the end, the bookkeeping raises. Variables that do not count as updated stay as they were known, whatever they are: proved in general."
  },
  {
   "property": "C113",
   "status": "partial",
   "theorems": [
    "Verif.Rebind.moved_right",
    "Verif.Rebind.nothing_lost",
    "Verif.Rebind.absent_stays",
    "Verif.Rebind.others_kept",
    "Verif.Rebind.kept_partial",
    "Verif.Rebind.shared_lost",
    "Verif.Rebind.named_alive",
    "Verif.Rebind.nameless_dead",
    "Verif.Rebind.recorded_partial",
    "Verif.Rebind.property_fails"
   ],
   "note": "What is recorded about the new object is right, parts the new one lacks stay, others are untouched, and the old object is given up exactly when no name is left: proved in full. All stays recorded for other names if the old object is not called after the variable or the parts of the new one are recorded already. Proved in general: otherwise the parts that both objects have are taken away from the old object though it has another name, and the symbols, with what depends on them, stand for parts of the new one; and the assignment is not recorded if a property of the new object raises an error of its own."
  },
  {
   "property": "C114",
   "status": "partial",
   "theorems": [
    "Verif.Extern.container_partial",
    "Verif.Extern.value_unrecorded",
    "Verif.Extern.reading_unrecorded",
    "Verif.Extern.quiet_recorded",
    "Verif.Extern.valued_unrecorded",
    "Verif.Extern.only_own",
    "Verif.Extern.depends_on_args",
    "Verif.Extern.first_arg_recorded",
    "Verif.Extern.first_arg_unrecorded",
    "Verif.Extern.later_arg_exact",
    "Verif.Extern.bytearray_unrecorded",
    "Verif.Extern.bound_unrecorded",
    "Verif.Extern.bound_append_fails",
    "Verif.Extern.clear_fails"
   ],
   "note": "Recorded for all changing methods of lists, dictionaries and sets except dict.pop, dict.popitem, dict.setdefault and set.pop returning a value; reading methods, other library objects, the extent of what is recorded and the dependencies: proved in full. Proved in general: those four methods are not recorded if they return a value other than None; a function of a module given a list, dictionary or set (random.shuffle, heapq.heappush) is not recorded as changing it; changes of a bytearray never are, since its type is listed as immutable; a method kept in a variable records nothing, and for append and extend the bookkeeping fails; clear fails for a dictionary with known keys of different types."
  },
  {
   "property": "C115",
   "status": "partial",
   "theorems": [
    "Verif.Chain.recorded_partial",
    "Verif.Chain.last_loaded_partial",
    "Verif.Chain.loaded_only_partial",
    "Verif.Chain.others_kept_partial",
    "Verif.Chain.variables_kept_partial",
    "Verif.Chain.clean_after",
    "Verif.Chain.value",
    "Verif.Chain.target_right_partial",
    "Verif.Chain.index_confused",
    "Verif.Chain.missing_recorded",
    "Verif.Chain.none_confused",
    "Verif.Chain.slice_unloaded",
    "Verif.Chain.slice_call_detached",
    "Verif.Chain.slice_store_lost",
    "Verif.Chain.slice_dependency_lost",
    "Verif.Chain.first_read_unused",
    "Verif.Chain.enclosing_unused",
    "Verif.Chain.known_used"
   ],
   "note": "Proved for expressions that read no part of None or the shell, use indices of supported types, and index only variables and results of methods with indices that are themselves made of parts. Otherwise false: after x.a[y.b] attribute a of x is recorded as the object y (index_confused); a failed x.a followed by y.b in the same statement records x.a as y (missing_recorded); x.a.k with x.a None records x.a as None.k (none_confused); slices are not recorded as read, so that after y = x[1:3] + z, y depends on z only (slice_unloaded, slice_dependency_lost, slice_call_detached), nor as targets (slice_store_lost). The first read of an attribute, and every read in a function of an attribute of an outer variable, records no use (first_read_unused, enclosing_unused)."
  },
  {
   "property": "C116",
   "status": "partial",
   "theorems": [
    "Verif.Place.accurate_partial",
    "Verif.Place.recorded_partial",
    "Verif.Place.others_kept_partial",
    "Verif.Place.dependencies_partial",
    "Verif.Place.dependencies_only_partial",
    "Verif.Place.dealt_with_partial",
    "Verif.Place.ends_kept_partial",
    "Verif.Place.misplaced",
    "Verif.Place.never_ends",
    "Verif.Place.ancestor_confused",
    "Verif.Place.chained_confused",
    "Verif.Place.unpacked_confused",
    "Verif.Place.augmented_confused",
    "Verif.Place.negative_confused",
    "Verif.Place.index_dependency_lost",
    "Verif.Place.cycle_made"
   ],
   "note": "Proved for all states if no object around a target already has the value, targets do not matter to each other, and lists and dictionaries get the value on the right side. Otherwise false, with proofs: x['a']['n'] = 0 is recorded as an element 'n' of x if x has a 0 (in general: misplaced); x[0], x[1] = x[1], x[0] records both as the pair; x[0] += 1 records None; x[-1] = y leaves x[1] as it was; x[i] = i does not depend on i; x['child']['up'] = x makes x a part of itself, after which no assignment to its parts is dealt with (never_ends)."
  },
  {
   "property": "C117",
   "status": "partial",
   "theorems": [
    "Verif.Garbage.freed_partial",
    "Verif.Garbage.kept_partial",
    "Verif.Garbage.known_partial",
    "Verif.Garbage.held_partial",
    "Verif.Garbage.marking_ends_partial",
    "Verif.Garbage.cycle_kept",
    "Verif.Garbage.element_kept",
    "Verif.Garbage.twice_kept",
    "Verif.Garbage.temporary_kept",
    "Verif.Garbage.returning_lost",
    "Verif.Garbage.reused_lost"
   ],
   "note": "Proved for all sequences of operations in which parts are used only of named objects, no elements are deleted, deleted names are not used again before the collection, no object gets a name again after it had lost all of them, and no name gets another object while all other names of its object were lost in the same cell; letting go also needs objects that do not contain themselves. Each of these conditions is needed, with proofs: an object that contains itself is held forever after del x; del x['a'] leaves the element held forever; y = x; del y; x = 5 in one cell leaves the object and its parts held forever; using a part of an object that has no name (f().a) holds that object forever; an object that is named again in the cell in which it lost its name loses all that was known of its parts; del x; x = 5 in one cell forgets x. Left out: anonymous symbols, the transfer of parts to a new object, renumbering of lists, Python's limit of recursion."
  },
  {
   "property": "C118",
   "status": "partial",
   "theorems": [
    "Verif.React.store_reaches_partial",
    "Verif.React.read_reaches_partial",
    "Verif.React.exact_partial",
    "Verif.React.blocked_read_partial",
    "Verif.React.root_blocked",
    "Verif.React.blocked_store_partial",
    "Verif.React.blocked_variable_partial",
    "Verif.React.cascade_partial",
    "Verif.React.block_lost",
    "Verif.React.block_hides",
    "Verif.React.late_block",
    "Verif.React.lost_wide",
    "Verif.React.sibling_forced",
    "Verif.React.wider_than_marked",
    "Verif.React.cascade_broken"
   ],
   "note": "Reaching readers is proved for all histories and cells of any assignments without $:; that no others are run again, for a cell of one assignment without $$ and readers that had seen all they listen to; $: in targets, for cells of one assignment; cascades, for chains of any length of cells of one assignment. Otherwise false, with proofs: $x.$:y is read as if the $: were not there; $:x = 1; $x = 2 in one cell, or x.$:y = 1; x.$z = 2, has no cell run again; x = 1; $:x = 2 has readers of $x run again; $$x = 1; x = 2 has no cell run again; x.$$y = 1 has the readers of x.z run again; x = 1; x.$y = 2 has the readers of x.z run again; a cascade from $$x.y = 1 ends where x is assigned something computed from x.y. Left out: several names for one object, calls in chains, assignments of the value that was there before."
  },
  {
   "property": "C119",
   "status": "partial",
   "theorems": [
    "Verif.Pending.sound",
    "Verif.Pending.recorded_partial",
    "Verif.Pending.exact_partial",
    "Verif.Pending.loop_args_partial",
    "Verif.Pending.failed_recorded",
    "Verif.Pending.other_result",
    "Verif.Pending.lost_callback",
    "Verif.Pending.lost_shell",
    "Verif.Pending.lost_failing",
    "Verif.Pending.lost_dropped",
    "Verif.Pending.loop_crash",
    "Verif.Pending.loop_other"
   ],
   "note": "Proved for all statements, exceptions and moments at which tracing is turned off: every record is of a library call that was made, once, in order, with the arguments and result of that call. All calls are recorded if the statements come to their end and tracing is not turned off while arguments of a library call are evaluated or by what raises. Violated otherwise: a call that raises is recorded with the next statement, with the result of another call; q.extend(sorted(xs, key=k)) with a notebook function k, and calls of shell methods in arguments, lose the record of q; calls of a statement that fails are lost; a loop over a zip made before raises IndexError in the handler."
  },
  {
   "property": "C120",
   "status": "partial",
   "theorems": [
    "Verif.Fails.kept_partial",
    "Verif.Fails.dropped_partial",
    "Verif.Fails.ready_partial",
    "Verif.Fails.span",
    "Verif.Fails.span_only",
    "Verif.Fails.method_iff",
    "Verif.Fails.matrix_lost",
    "Verif.Fails.record_lost",
    "Verif.Fails.mapping_lost",
    "Verif.Fails.default_lost",
    "Verif.Fails.method_lost",
    "Verif.Fails.negative_kept",
    "Verif.Fails.ready_iff",
    "Verif.Fails.call_ready_iff",
    "Verif.Fails.called",
    "Verif.Fails.digits_lost"
   ],
   "note": "Proved for accesses in which every key is spelled out, with symbols up to date: an access that does not fail has all objects on the way count as read and makes the cell ready when its variable is assigned anew; objects that lack what is asked for do not count. Both under conditions on the kind of object that are shown to be needed: violated for m[i][2] (taken for m[2], so the cell is never ready if m has fewer rows), d[i].name, text keys of mappings that are not dicts, keys made up by defaultdict, attributes of dicts, and negative indices out of range. The in-order exception and method calls are settled exactly."
  },
  {
   "property": "C121",
   "status": "partial",
   "theorems": [
    "Verif.Session.asked_partial",
    "Verif.Session.asks_counted",
    "Verif.Session.several_asks",
    "Verif.Session.never_again",
    "Verif.Session.late_after_batch",
    "Verif.Session.late_after_deferred",
    "Verif.Session.late_direct"
   ],
   "note": "Holds for sessions that do not mix batches or put-off runs with runs one by one and have no alternate-mode run with incremental reactivity. Violated otherwise: batches and put-off runs count up a counter and nothing counts it down, so that from then on the end of an ordinary run never makes the client ask (`never_again`)."
  },
  {
   "property": "C122",
   "status": "partial",
   "theorems": [
    "Verif.Session.mode_partial",
    "Verif.Session.run_partial",
    "Verif.Session.press_partial",
    "Verif.Session.returns_partial",
    "Verif.Session.slice_partial",
    "Verif.Session.lingers",
    "Verif.Session.twice",
    "Verif.Session.switched",
    "Verif.Session.slice_lost"
   ],
   "note": "Holds for batch reactivity, and for incremental reactivity when no alternate-mode run is counted as under way. Violated: with incremental reactivity the next ordinary run is in the other mode too, and one schedule does not undo two presses; `%flow reactivity` in a cell run in alternate mode leaves the mode flipped; with incremental reactivity in reactive mode the slice commands run nothing."
  },
  {
   "property": "C123",
   "status": "partial",
   "theorems": [
    "Verif.Connect.run_partial",
    "Verif.Connect.known",
    "Verif.Connect.own_partial",
    "Verif.Connect.released",
    "Verif.Connect.changed",
    "Verif.Connect.shut_down",
    "Verif.Connect.one_notebook",
    "Verif.Connect.unloaded",
    "Verif.Connect.elsewhere",
    "Verif.Connect.forgotten",
    "Verif.Connect.no_kernel",
    "Verif.Connect.too_early"
   ],
   "note": "Holds for one notebook whose kernel is an ipyflow kernel or has been offered a connection, and for several if each schedule arrives for the notebook of the cells that were put off. Violated otherwise: the list of put-off cells is shared by all notebooks, so that another kernel runs the cell (`elsewhere`) or none (`forgotten`); the wrapped command ends with an error without a kernel, while another kernel starts, and for good after the extension was unloaded (`unloaded`)."
  },
  {
   "property": "C124",
   "status": "partial",
   "theorems": [
    "Verif.Lambda.quiet_partial",
    "Verif.Lambda.live_partial",
    "Verif.Lambda.new_object",
    "Verif.Lambda.left_alone",
    "Verif.Lambda.untraced",
    "Verif.Lambda.not_recognised",
    "Verif.Lambda.stale_global",
    "Verif.Lambda.stale_cell",
    "Verif.Lambda.default_changed",
    "Verif.Lambda.still_traced"
   ],
   "note": "Holds while no variable changes after the lambda was given to the library and no default would be computed differently now, for functions that refer to each other in any way (`quiet_partial`); and for all later states for lambdas that refer to no function of the notebook, have no variables of enclosing functions and no computed default (`live_partial`). Violated otherwise: the copy has the globals of the moment if the lambda calls a function of the notebook (`stale_global`), always has the closure variables of the moment (`stale_cell`), and defaults are computed anew (`default_changed`). Each time the library gets another object (`not_recognised`), so that a callback cannot be removed."
  },
  {
   "property": "C125",
   "status": "partial",
   "theorems": [
    "Verif.Funct.gives_partial",
    "Verif.Funct.parameters",
    "Verif.Funct.no_such_name",
    "Verif.Funct.comment_last",
    "Verif.Funct.two_last",
    "Verif.Funct.assign_and_expr",
    "Verif.Funct.wide_expr",
    "Verif.Funct.continued",
    "Verif.Funct.module_name",
    "Verif.Funct.none_passed",
    "Verif.Funct.called_elsewhere",
    "Verif.Funct.positional"
   ],
   "note": "Proved for slices without blocks whose last line is one statement, called from the notebook with keyword arguments other than None, if no name that is needed and assigned is that of a builtin or loaded module. Violated otherwise: a comment as the last line, or two statements of which the first is an assignment, or a continued last line: no function is made; `x; y` gives x; an expression over several lines gives None; names of modules cannot be given and make the call raise when they are assigned; None cannot be given; defaults are taken from whoever calls the function; the order of parameters is that of a set."
  },
  {
   "property": "C126",
   "status": "partial",
   "theorems": [
    "Verif.Copy.copied_iff",
    "Verif.Copy.shown_iff",
    "Verif.Copy.single_quote",
    "Verif.Copy.double_quote",
    "Verif.Copy.half",
    "Verif.Copy.emoji",
    "Verif.Copy.ampersand",
    "Verif.Copy.percent_sign",
    "Verif.Copy.comparison"
   ],
   "note": "Decided for all texts without & and %: copied as they are exactly if they have neither kind of quote and no character beyond U+FFFF; for all texts without &: shown as they are exactly if nothing in them starts like a tag. Violated otherwise, in particular for every slice with a string literal. What is missing: texts with & and %, for which only examples are given."
  },
  {
   "property": "C127",
   "status": "partial",
   "theorems": [
    "Verif.Content.heard_iff",
    "Verif.Content.heard",
    "Verif.Content.kept",
    "Verif.Content.settled_partial",
    "Verif.Content.taken_back",
    "Verif.Content.run_and_taken_back",
    "Verif.Content.turned_into_text",
    "Verif.Content.deleted",
    "Verif.Content.blocked"
   ],
   "note": "Proved: what the kernel works with after every message, that it is the code on the screen (heard, heard_iff), that only edits can change that (kept), and that it holds once the notebook has come to rest with something new (settled_partial). Violated: an edit that is taken back within the half second after the kernel heard of it in a request or by a run is never reported (taken_back, run_and_taken_back); a code cell turned into text is analysed with its old code (turned_into_text); code on which the analysis fails with another exception than a SyntaxError keeps the kernel from hearing of the cells below (blocked)."
  },
  {
   "property": "C128",
   "status": "partial",
   "theorems": [
    "Verif.Content.unused",
    "Verif.Content.used",
    "Verif.Content.unassigned_partial",
    "Verif.Content.changed_while_running",
    "Verif.Content.back_again"
   ],
   "note": "Proved: a link goes away with the uses once the kernel has seen them (unused), stays while a variable is assigned and used (used), and goes away with the assignments in the first answer (unassigned_partial). Violated: the link is back in the answer after any other cell is run, since the variables written in the last run are added again on the second check of the same code (back_again); a link does not go away if the use was taken out while the cell was running (changed_while_running)."
  },
  {
   "property": "C129",
   "status": "partial",
   "theorems": [
    "Verif.Widget.noticed_partial",
    "Verif.Widget.settled_by_run_partial",
    "Verif.Widget.runs_again",
    "Verif.Widget.unnoticed",
    "Verif.Widget.ends_with_exception"
   ],
   "note": "Proved: a widget moved to another number makes the cells that read it ready until they are run again, whatever happens meanwhile (noticed_partial); a cell that sets none of the widgets it reads is not ready right after it ran (settled_by_run_partial). Violated: a cell that reads a widget and then sets it is ready right after it ran (runs_again); nothing is noticed when two words or only blanks are typed, since the text is put unquoted into an assignment that is parsed (unnoticed); a program's own assignment of such a text raises a SyntaxError in the user's cell (ends_with_exception). Missing: texts that parse, containers of widgets, several names for one widget (see C131)."
  },
  {
   "property": "C130",
   "status": "partial",
   "theorems": [
    "Verif.Widget.code_partial",
    "Verif.Widget.two_from_one_cell",
    "Verif.Widget.set_by_program",
    "Verif.Widget.word_becomes_name",
    "Verif.Widget.digits_become_number"
   ],
   "note": "Proved: for a widget that is alone in its execution, is not set by programs, and shows a number or was never moved (code_partial). Violated: with two widgets made by one cell the code raises a NameError (two_from_one_cell); a value set by a program after a move wins over the later move (set_by_program); a word becomes a name (word_becomes_name); digits typed as text become a number (digits_become_number)."
  },
  {
   "property": "C131",
   "status": "partial",
   "theorems": [
    "Verif.Listen.heard_iff",
    "Verif.Listen.heard_partial",
    "Verif.Listen.kept_iff",
    "Verif.Listen.kept_partial",
    "Verif.Listen.unheard_alias",
    "Verif.Listen.unheard_self",
    "Verif.Listen.dropped"
   ],
   "note": "Proved: exactly when a widget is heard (heard_iff); it is from the binding of its only name until that name is bound again (heard_partial); exactly which assignments leave the user's callbacks (kept_iff), among them all that do not bind a name of the widget (kept_partial). Violated: unobserve_all is called when the first name is bound again: another name keeps the widget but it is no longer heard (unheard_alias), `s = tweak(s)` silences it (unheard_self), and the user's own callbacks are dropped even if the same widget is bound again (dropped). Missing: widgets in containers and in local scopes, deleted names."
  },
  {
   "property": "C132",
   "status": "partial",
   "theorems": [
    "Verif.Hold.values_eq",
    "Verif.Hold.run_again",
    "Verif.Hold.shows_own",
    "Verif.Hold.shows_nothing_printed",
    "Verif.Hold.shows_previous_partial",
    "Verif.Hold.result_twice",
    "Verif.Hold.old_below_new",
    "Verif.Hold.not_held_after_moving",
    "Verif.Hold.result_of_another"
   ],
   "note": "Proved: the variables after every history are those for exactly the right runs being held back (values_eq), a repeated run is executed (run_again), other runs show their own output (shows_own), and a run that is held back shows again what the last execution printed, if that was a plain one (shows_previous_partial, shows_nothing_printed). Violated: the old result is shown twice (result_twice); when the run is repeated and executed, the old output is shown below the new (old_below_new); the result of another cell may be shown, since IPython puts what is shown again into Out of the next run (result_of_another); a run is not held back if the cell was moved up since the last run and that was of the same cell (not_held_after_moving)."
  },
  {
   "property": "C133",
   "status": "partial",
   "theorems": [
    "Verif.Hold.reported_partial",
    "Verif.Hold.forgotten"
   ],
   "note": "Proved for cells whose last run was not held back (reported_partial). Violated: right after a run that was held back a cell is not reported, whatever is out of date, since the run got a new counter (forgotten)."
  },
  {
   "property": "C134",
   "status": "partial",
   "theorems": [
    "Verif.Versions.current_partial",
    "Verif.Versions.version_exact",
    "Verif.Versions.old_version_partial",
    "Verif.Versions.change_lost",
    "Verif.Versions.name_counts",
    "Verif.Versions.first_raises",
    "Verif.Versions.last_by_number",
    "Verif.Versions.order_changed",
    "Verif.Versions.second_name_missing"
   ],
   "note": "Proved: code(x) makes x what it is now (current_partial), what the code of every other version makes of x, or that it raises (version_exact), which is right for variables that are only bound (old_version_partial). Violated: the version made by a change of a dictionary has code that leaves the change out, since the name notes the time at which it was bound (change_lost), so that the last version by number is not version -1 (last_by_number); a second name adds a version of the first (name_counts), and version 0 of the second name raises a KeyError (first_raises). What is missing: the order of elements, which may differ (order_changed), and elements read through a second name (second_name_missing)."
  },
  {
   "property": "C135",
   "status": "partial",
   "theorems": [
    "Verif.Versions.timestamp_exact",
    "Verif.Versions.timestamp_partial",
    "Verif.Versions.timestamp_moved"
   ],
   "note": "Decided for all notebooks (timestamp_exact); it is the time of the last change if no dictionary gets a second name (timestamp_partial). Violated: `y = x` moves the timestamp of every name of the dictionary, though nothing changed (timestamp_moved)."
  },
  {
   "property": "C136",
   "status": "partial",
   "theorems": [
    "Verif.Selfuse.code_partial",
    "Verif.Selfuse.self_update_raises",
    "Verif.Selfuse.self_update_wrong"
   ],
   "note": "Proved for notebooks in which no plain assignment sets an attribute to something computed from itself (code_partial); augmented assignments are fine. Violated: after `o.a = o.a + 1` the earlier assignments of o.a are missing from the code, since the reading of an attribute is noted when the statement is done and o.a has already been refreshed; the code raises an AttributeError, for all such notebooks (self_update_raises), or gives another value (self_update_wrong). What is missing: nothing within the modelled language."
  },
  {
   "property": "C137",
   "status": "partial",
   "theorems": [
    "Verif.Calls.code_runs_alone_partial",
    "Verif.Calls.values_right",
    "Verif.Calls.code_unknown",
    "Verif.Calls.second_call_stale",
    "Verif.Calls.Witness.changed_wrong",
    "Verif.Calls.Witness.one_cell_raises"
   ],
   "note": "Proved for all notebooks in which no cell calls a function a second time to read a variable that the cell has set (code_runs_alone_partial). Violated otherwise: a return statement is handled once per cell, so for `a = f()`, `y = 5`, `x = f()` in a cell the code of x lacks `y = 5` and gives the first result, whatever was run before (second_call_stale, changed_wrong); with everything in one cell the code of the second result raises (one_cell_raises). What is missing: arguments, nested calls and loops."
  },
  {
   "property": "C138",
   "status": "partial",
   "theorems": [
    "Verif.Watch.stops_partial",
    "Verif.Watch.stops_exact",
    "Verif.Watch.raise_disables",
    "Verif.Watch.Witness.loop_missed",
    "Verif.Watch.Witness.second_call_missed",
    "Verif.Watch.Witness.raising_late"
   ],
   "note": "Proved: if no predicate raises, the program stops after exactly the executions that should stop it and are the first traced ones of their statement in the cell, once after each (stops_exact), so after all of them if no cell executes a statement twice (stops_partial). Violated: later iterations of a loop and later calls of a function are not looked at (loop_missed, second_call_missed); after a predicate of x raised (the exception is only logged) no watchpoint of any variable stops the program until x is set again (raise_disables), and what was found meanwhile stops it too late (raising_late). A predicate that takes only the value always raises, since position and symbol_name are passed by keyword. Missing: aliases, parts of objects, assignments of the same object."
  },
  {
   "property": "C139",
   "status": "partial",
   "theorems": [
    "Verif.Loops.code_runs_alone_partial",
    "Verif.Loops.branches_run_alone",
    "Verif.Loops.values_right",
    "Verif.Loops.later_iteration_lost",
    "Verif.Loops.later_iteration_unknown",
    "Verif.Loops.Witness.accumulator_lost",
    "Verif.Loops.Witness.condition_lost",
    "Verif.Loops.Witness.later_read_lost",
    "Verif.Loops.Witness.empty_loop_takes",
    "Verif.Loops.Witness.mention_takes"
   ],
   "note": "Proved for all notebooks without loops (branches_run_alone), and with loops as long as what the tracer misses makes no difference (code_runs_alone_partial). Violated: a variable set only in later iterations keeps its old code or has none (later_iteration_lost, later_iteration_unknown); links to variables that the cell has set are missing if only later iterations read them (accumulator_lost, later_read_lost) or a while loop sets its condition (condition_lost); a loop without iterations takes over its variable (empty_loop_takes); a loop takes over variables of earlier loops that it mentions (mention_takes)."
  },
  {
   "property": "C140",
   "status": "partial",
   "theorems": [
    "Verif.Text.code_reads_back_partial",
    "Verif.Text.code_reads_back_iff",
    "Verif.Text.bad_no_program",
    "Verif.Text.reading_unique",
    "Verif.Text.several_lines_read_back",
    "Verif.Text.package_reads_back",
    "Verif.Text.widget_raises_iff",
    "Verif.Text.product_of_sums_lost",
    "Verif.Text.quotient_by_call_lost",
    "Verif.Text.empty_tuple_lost",
    "Verif.Text.unbracketed_left_kept"
   ],
   "note": "False as stated: on Python 3.9 and later an assignment on one line whose value is an operator with a bracket at both ends of its text, such as x = (a + b) * (c + d), loses these two brackets, and an empty tuple is lost altogether (bad_no_program, with no assumption on the other statements). Exactly these are lost (code_reads_back_iff); everything else is read back, uniquely (reading_unique). Showing the code in Jupyter raises in these cases (widget_raises_iff)."
  },
  {
   "property": "C141",
   "status": "partial",
   "theorems": [
    "Verif.Parts.magic_exact_partial",
    "Verif.Parts.magic_given_partial",
    "Verif.Parts.unfinished_raises",
    "Verif.Parts.shortened_missing",
    "Verif.Parts.whole_cells_shown",
    "Verif.Parts.flag_without_effect",
    "Verif.Parts.code_shows_others",
    "Verif.Parts.never_warns"
   ],
   "note": "Proved for %flow slice --stmt on a cell that ran to its end and has not had statements added or removed since (magic_exact_partial, magic_given_partial). Violated otherwise: the number of statements is taken from the text in the editor, so a cell that raised midway or had statements added has no slice by statements, each way to ask raises KeyError (unfinished_raises), and if statements were removed as many of those it ran last are missing (shortened_missing). cell.slice(stmts=True) formats with the class of cells, so it shows whole cells (whole_cells_shown), indeed the same as cell.slice() (flag_without_effect), and cell.code(stmts=True) shows other cells while cell.code() does not (code_shows_others). The warning for cells not yet run is unreachable, a KeyError is raised (never_warns). What is missing: memoized executions, tags, several statements with one timestamp."
  },
  {
   "property": "C142",
   "status": "partial",
   "theorems": [
    "Verif.Shown.shown_ran_partial",
    "Verif.Shown.slice_ran_partial",
    "Verif.Shown.shown_exact",
    "Verif.Shown.shown_iff",
    "Verif.Shown.edit_shown",
    "Verif.Shown.past_rewritten",
    "Verif.Shown.slice_entry",
    "Verif.Shown.refused_shown",
    "Verif.Shown.reproduce_exact",
    "Verif.Shown.reproduce_beyond",
    "Verif.Shown.Witness.slice_wrong",
    "Verif.Shown.Witness.empty_memo"
   ],
   "note": "Proved for executions whose cell was not edited, as far as the kernel heard, before it was run again (shown_ran_partial, slice_ran_partial); what is shown in general is the code heard last before that (shown_exact, slice_entry). Violated: the text in the slice is that of the editor, so after an edit a slice contains code that was never run (edit_shown, slice_wrong), and when the cell is run again the code heard before stays with the earlier execution for good (past_rewritten); the code of refused executions is shown (refused_shown). reproduce_cell prints what was run whatever was edited (reproduce_exact), but raises ValueError if nothing was run, and looking back one step too far gives an execution that never was if the cell was heard of before its first run (reproduce_beyond). What is missing: exceptions other than SyntaxError while new code is checked; ids replaced by the client."
  },
  {
   "property": "C143",
   "status": "partial",
   "theorems": [
    "Verif.Inplace.code_makes_partial",
    "Verif.Inplace.code_makes_late",
    "Verif.Inplace.alias_never_in_code",
    "Verif.Inplace.alias_undefined",
    "Verif.Inplace.alias_lost",
    "Verif.Inplace.alias_kept"
   ],
   "note": "False as stated: the names of a set are all given the time of a change, and the statement that gave the name is reached only through the symbol for changes of the whole, which exists only after the first method call. So after x = set(), y = x, x.add(e), whatever comes before and after, the statement y = x is in the code of no variable (alias_never_in_code), the code of y leaves y undefined (alias_undefined) and the code of z = sum(y) raises NameError (alias_lost). Proved for variables when no statement reads such a name (code_makes_partial); in particular for all variables when names are given only after the first change (code_makes_late), when however naming counts as a change (alias_kept). What is missing: second names that were bound before, values other than numbers and sets of numbers, methods that return something."
  },
  {
   "property": "C144",
   "status": "partial",
   "theorems": [
    "Verif.Hide.shown_partial",
    "Verif.Hide.shown_exact",
    "Verif.Hide.user_frame_lost",
    "Verif.Hide.again",
    "Verif.Hide.dev_all"
   ],
   "note": "Proved if just the frames of the machinery are recognised and none is in the tracebacks of the exceptions the raised one came from (shown_partial; these may share nodes). What is shown in general is shown_exact: frames of the program in files whose path contains pyccolo are lost (user_frame_lost), and the tracebacks of the exceptions that the raised one came from (raise ... from ...) are not filtered at all. How IPython renders tracebacks is assumed."
  },
  {
   "property": "C145",
   "status": "partial",
   "theorems": [
    "Verif.Paint.painted_partial",
    "Verif.Paint.told",
    "Verif.Paint.asked",
    "Verif.Paint.painted_push_partial",
    "Verif.Paint.kept",
    "Verif.Paint.run_marked_again",
    "Verif.Paint.text_keeps_slice",
    "Verif.Paint.ready_forgotten"
   ],
   "note": "Proved for the end of runs and for code cells that become active (painted_partial, told, asked; painted_push_partial shows that the marks are always updated and what the slices are without pull_reactive_updates); between such events marks stay, except that executed cells lose the marks of readiness (kept). Violated: the sets of ready cells are not updated when a cell is executed, so it is marked as ready again when another cell becomes active before the next schedule (run_marked_again); when a text cell becomes active the slices of the former cell stay marked (text_keeps_slice); with reactive highlights the set of ready cells is overwritten by the cells that ran (ready_forgotten). The minimap and hovering are not modelled."
  },
  {
   "property": "C146",
   "status": "partial",
   "theorems": [
    "Verif.Paint.selected_partial",
    "Verif.Paint.selected_last",
    "Verif.Paint.selected_erased",
    "Verif.Paint.mapping_lost",
    "Verif.Paint.background_runs_nothing",
    "Verif.Paint.kept"
   ],
   "note": "Proved if the shown notebook was connected last (selected_partial); marks of notebooks in the background do stay (kept). Violated in general: the handlers of all connected notebooks paint the shown one, each from its own state, so the one connected last decides (selected_last), and if that is another one the marks vanish (selected_erased); each of them also replaces its table of cells by that of the shown notebook (mapping_lost), after which a notebook in the background runs none of the cells that its schedules call for (background_runs_nothing)."
  },
  {
   "property": "C147",
   "status": "partial",
   "theorems": [
    "Verif.Nest.attributed_partial",
    "Verif.Nest.taken_over",
    "Verif.Nest.code_partial",
    "Verif.Nest.rerun_stale",
    "Verif.Nest.recorded_partial",
    "Verif.Nest.recorded_now_partial",
    "Verif.Nest.outdated_unrecorded",
    "Verif.Nest.earlier_uses_lost",
    "Verif.Nest.use_lost",
    "Verif.Nest.after_call_unrecorded"
   ],
   "note": "A run inside a run takes the next number, which IPython then gives to the next cell as well. Proved as long as no cell is run after a cell that ran code inside with magics (attributed_partial), and without runs inside for code (code_partial) and dependencies (recorded_partial; recorded_now_partial shows that only what the other cell depends on now is in the way). Violated even then if the cell that set the variable was run again since without setting it: the reading cell gets no dependency by it at all (outdated_unrecorded). Violated otherwise: what the j-th run inside has set is said to have been set by the j-th cell run afterwards (taken_over), the next cell gets no dependency by it (use_lost), the cell itself run again right away keeps the code and dependencies of the code that was run inside (rerun_stale), what it read before is forgotten (earlier_uses_lost); after a direct call of run_cell the rest of the cell is not tracked at all (after_call_unrecorded). What is missing: static dependencies, statements, attributes and subscripts, memoized cells."
  },
  {
   "property": "C148",
   "status": "partial",
   "theorems": [
    "Verif.Nest.outvar_partial",
    "Verif.Nest.outvar_no_name",
    "Verif.Nest.outvar_spurious"
   ],
   "note": "Proved if the name is all there is on the line (outvar_partial). All of the line is taken as the name: with an option the symbol has a name with a blank in it, so that the variable is not tracked (outvar_no_name); with options only, a symbol is made for them (outvar_spurious). What is missing: whitespace other than blanks, abbreviated options, names that are made of quoted words."
  },
  {
   "property": "C149",
   "status": "partial",
   "theorems": [
    "Verif.StubFile.blocks_partial",
    "Verif.StubFile.blocks_sound",
    "Verif.StubFile.nothing_else_evaluated",
    "Verif.StubFile.docstring_stops",
    "Verif.StubFile.no_colon_needed",
    "Verif.StubFile.number_condition_stops",
    "Verif.StubFile.long_condition_stops"
   ],
   "note": "Proved for files whose strings are all conditions on tuples of up to three numbers or comments that start with an expression other than a comparison (blocks_partial), and in general that all that is registered stands in the file, inside of harmless comparisons only (blocks_sound), and that nothing else is evaluated (nothing_else_evaluated). Violated otherwise: a docstring ends the registration with an error and only the stubs before it are registered (docstring_stops); the first character is not looked at, so that a block that was commented out with # applies (no_colon_needed); sys.version_info >= 3 passes the check and is a TypeError (number_condition_stops), as is a comparison with four numbers that begin with the version (long_condition_stops). What is missing: complex, infinite and nan numbers."
  },
  {
   "property": "C150",
   "status": "partial",
   "theorems": [
    "Verif.StubFile.in_force_partial",
    "Verif.StubFile.in_force_sound",
    "Verif.StubFile.file_alone_inert",
    "Verif.StubFile.file_too_late",
    "Verif.StubFile.bad_file_stops"
   ],
   "note": "Proved for all sessions with well-formed files in which files registered on their own come before the import of their modules (in_force_partial), and in general that no function has an annotation nobody asked for (in_force_sound). Violated otherwise: registering a file, other than a directory, puts nothing in force (file_alone_inert), so that annotations for modules that are imported already have no effect (file_too_late); and a file with an error or a docstring keeps all annotations of its directory from having effect (bad_file_stops). What is missing: functions that several modules have, and methods, for which see C98 and C99."
  },
  {
   "property": "C151",
   "status": "partial",
   "theorems": [
    "Verif.Hover.pointed_partial",
    "Verif.Hover.pointed_sound",
    "Verif.Hover.late_cell_silent",
    "Verif.Hover.stops_at_missing",
    "Verif.Hover.refresh_goes_dark",
    "Verif.Hover.stale_links"
   ],
   "note": "Proved if what is shown was refreshed since the schedule, the cell had its bars by then, and the linked cells are there with theirs (pointed_partial), and in general that nothing else is lit than what the schedule of the last refresh says (pointed_sound). Violated otherwise: a cell that is scrolled to after the refresh lights nothing (late_cell_silent); if the first linked cell has been removed or has no bars, none of the others is lit (stops_at_missing); a refresh while the pointer is on a bar darkens everything (refresh_goes_dark); and a schedule that comes while cells are still to be run, or while another notebook is shown, has no effect on what is lit (stale_links)."
  },
  {
   "property": "C152",
   "status": "partial",
   "theorems": [
    "Verif.Hover.nothing_left_partial",
    "Verif.Hover.leaving_darkens",
    "Verif.Hover.deleted_leaves"
   ],
   "note": "Proved unless a cell was removed from under the pointer since the last refresh (nothing_left_partial), whatever else happened while the pointer was on a bar (leaving_darkens). If a cell is removed from under the pointer, the bars that it lit stay lit (deleted_leaves) until the next refresh."
  },
  {
   "property": "C153",
   "status": "partial",
   "theorems": [
    "Verif.Lint.lint_partial",
    "Verif.Lint.lint_sound",
    "Verif.Lint.lint_some",
    "Verif.Lint.lint_total",
    "Verif.Lint.second_lost",
    "Verif.Lint.removed_listed",
    "Verif.Lint.removed_silent",
    "Verif.Lint.gone_listed"
   ],
   "note": "Proved if every cell that was run is in the order last told and no statement reads a variable at two places (lint_partial); with such statements, that nothing else is listed (lint_sound) and that for each such use some place is (lint_some); and that the list can always be made (lint_total). Violated otherwise: of two uses of a variable by one statement only the last is listed (second_lost); if flow is in the order of the notebook, values set by a cell that was removed are listed as if it stood below (removed_listed), otherwise they never are (removed_silent); a removed cell is listed for all that it used of cells that are there (gone_listed)."
  },
  {
   "property": "C154",
   "status": "partial",
   "theorems": [
    "Verif.Tracers.sees_partial",
    "Verif.Tracers.sees_sound",
    "Verif.Tracers.after_change",
    "Verif.Tracers.one_of_a_name",
    "Verif.Tracers.capture_first",
    "Verif.Tracers.late_registration"
   ],
   "note": "Proved if tracers were registered and deregistered in traced cells only and, for the recorder, the first traced cell since did not begin with %%capture (sees_partial); after a traced cell that registers or deregisters a tracer, whatever happened before (after_change); and in general that no others see statements (sees_sound) and one of a name at most (one_of_a_name). Violated otherwise: if the first traced cell of a session begins with %%capture, the recorder is never started and no output is recorded (capture_first); a tracer registered while tracking is off does not see the next traced cell (late_registration). What pyccolo does is assumed as stated in the model."
  },
  {
   "property": "C155",
   "status": "partial",
   "theorems": [
    "Verif.Tracers.debugger_partial",
    "Verif.Tracers.disconnect_switches_on",
    "Verif.Tracers.on_while_attached"
   ],
   "note": "Proved for sessions with the three tracers of ipyflow in which tracking is not switched on while a debugger is attached and not off when one is disconnected (debugger_partial). Violated otherwise: disconnecting switches tracking on although the user had switched it off (disconnect_switches_on), and %flow on while a debugger is attached has cells tracked under the debugger (on_while_attached)."
  },
  {
   "property": "C156",
   "status": "partial",
   "theorems": [
    "Verif.Around.always_answers",
    "Verif.Around.at_zero",
    "Verif.Around.below_partial",
    "Verif.Around.above_partial",
    "Verif.Around.below_sound",
    "Verif.Around.above_sound",
    "Verif.Around.hidden_below",
    "Verif.Around.hidden_above",
    "Verif.Around.wrong_below",
    "Verif.Around.untold_below",
    "Verif.Around.gone_around"
   ],
   "note": "Proved for code cells of the notebook as last told, if all cells up to the offset are code cells (below_partial, above_partial), and in general for such cells that what is given is a code cell on the right side (below_sound, above_sound); that the functions always answer in a running cell (always_answers), with the cell itself at offset zero (at_zero). Violated otherwise: a text cell in between hides the neighbour (hidden_below, hidden_above) and at larger offsets another cell is given (wrong_below); for a cell that is run before the kernel was told of it the first cell of the notebook is the one below (untold_below); with flow in the order of the notebook, for a cell that is run after it was said to be gone a removed cell is given at every offset (gone_around)."
  },
  {
   "property": "C157",
   "status": "partial",
   "theorems": [
    "Verif.Recall.last_run_partial",
    "Verif.Recall.first_fails",
    "Verif.Recall.last_run_wrong"
   ],
   "note": "Proved if the run right before was kept in IPython's history or this one is not (last_run_partial). Violated otherwise: after a run that is not kept (store_history=False), a kept run is given another cell (last_run_wrong). In the first run there is a KeyError rather than None (first_fails)."
  },
  {
   "property": "C158",
   "status": "partial",
   "theorems": [
    "Verif.Recall.stdout_partial",
    "Verif.Recall.stderr_partial",
    "Verif.Recall.let_go",
    "Verif.Recall.untraced_none",
    "Verif.Recall.unknown_number",
    "Verif.Recall.own_output",
    "Verif.Recall.other_output",
    "Verif.Recall.number_twice"
   ],
   "note": "Proved if all runs are kept in IPython's history, for runs that are traced and recorded, for good unless the output is large and the cell is run again with tracking on (stdout_partial, stderr_partial, let_go); errors for exactly the numbers no run has had (unknown_number); and in general for the run just made (own_output). Violated otherwise: a run that captures its output (%%capture) is given the output of the last run before it (other_output); a run that is not kept has its number given to the next one (number_twice); untraced runs have none (untraced_none)."
  },
  {
   "property": "C159",
   "status": "partial",
   "theorems": [
    "Verif.Declare.answered_iff",
    "Verif.Declare.declared_partial",
    "Verif.Declare.both_declared_partial",
    "Verif.Declare.analysed_partial",
    "Verif.Declare.declared_sound",
    "Verif.Declare.known_iff",
    "Verif.Declare.never_answered",
    "Verif.Declare.unanswered_unknown",
    "Verif.Declare.taken_back_stays",
    "Verif.Declare.nothing_ignored",
    "Verif.Declare.run_forgets"
   ],
   "note": "Proved for messages that declare something only for cells the kernel has seen (declared_partial, both_declared_partial, analysed_partial); which messages are answered is characterised exactly (answered_iff), which cells are known too (known_iff), and whatever is taken as declared was declared (declared_sound). Violated otherwise: a message that declares something for a cell the kernel has not seen fails as a whole with a KeyError, as does every later one until the cell is run (never_answered), and new cells of it stay unknown (unanswered_unknown); declarations cannot be taken back (taken_back_stays); a cell declared to read and write nothing is analysed as if nothing was declared (nothing_ignored); a run forgets the declaration until the next message (run_forgets)."
  },
  {
   "property": "C160",
   "status": "partial",
   "theorems": [
    "Verif.Saved.before_runs",
    "Verif.Saved.kept_any_order_partial",
    "Verif.Saved.kept_in_order_partial",
    "Verif.Saved.hidden_saved",
    "Verif.Saved.hidden_read",
    "Verif.Saved.run_drops",
    "Verif.Saved.known_only",
    "Verif.Saved.upwards",
    "Verif.Saved.two_sided",
    "Verif.Saved.one_sided",
    "Verif.Saved.both_ways_lost",
    "Verif.Saved.gone_stays",
    "Verif.Saved.never_back"
   ],
   "note": "Proved: until a cell is run, the client has just what was saved (before_runs); after that, saved links between cells that have not been run are kept if data may flow in any order (kept_any_order_partial), and in order for links to cells above of cells that are not found to read anything (kept_in_order_partial), in both cases for links that do not go both ways; links of present cells are between present cells, go upwards in order, and agree with children (known_only, upwards, two_sided). Violated: in order, a saved link hides the links to all cells further above as soon as one of the parents was run, even those to cells whose values are read (hidden_saved, hidden_read), and they are not saved any more, in any later session (never_back); links to a cell that was run go unless found again (run_drops), which may be intended; saved links that go both ways lose one direction (both_ways_lost); cells that were removed before the session keep their parents for good (gone_stays), which do not have them as children (one_sided)."
  },
  {
   "property": "C161",
   "status": "partial",
   "theorems": [
    "Verif.Imports.recorded_partial",
    "Verif.Imports.recorded_single",
    "Verif.Imports.dotted_partial",
    "Verif.Imports.kept_partial",
    "Verif.Imports.kept_known",
    "Verif.Imports.from_takes_over",
    "Verif.Imports.same_name_lost",
    "Verif.Imports.dotted_lost",
    "Verif.Imports.other_name"
   ],
   "note": "Proved for names that the same import does not mention as a package later on (recorded_partial; in particular for imports of one name, recorded_single), and for the first part of `import a.b` if nothing referred to the package yet (dotted_partial); other variables stay as they were unless a package of that name is mentioned without `as` (kept_partial), or, for imports of one name, if something refers to it (kept_known). Violated otherwise: `from math import sqrt` is recorded as an update of a variable called math (from_takes_over); after `from datetime import datetime, timedelta` the module is recorded as the value of datetime (same_name_lost); `import a.b` is not recorded if anything refers to a (dotted_lost); `import os.path` is recorded for posixpath (other_name)."
  },
  {
   "property": "C162",
   "status": "partial",
   "theorems": [
    "Verif.Imports.listed_sound",
    "Verif.Imports.listed_partial",
    "Verif.Imports.never_listed",
    "Verif.Imports.assigned_lost",
    "Verif.Imports.plain_lost"
   ],
   "note": "Proved in one direction for all sessions (listed_sound), in both for variables that are only bound by imports and not called like a package that is imported without `as` (listed_partial). Violated otherwise: a variable that was ever known as something else is never given as an import, until it is deleted (never_listed, assigned_lost); neither is c after `import c` if nothing referred to the module before (plain_lost)."
  },
  {
   "property": "C163",
   "status": "partial",
   "theorems": [
    "Verif.Naming.shown_partial",
    "Verif.Naming.word_unquoted",
    "Verif.Naming.digits_clash",
    "Verif.Naming.rebound_wrong",
    "Verif.Naming.deleted_wrong",
    "Verif.Naming.wrapped_wrong"
   ],
   "note": "Proved for lists, nested and with references to other variables to any depth, in sessions in which no statement takes an object away from a variable while another variable leads to it or a part of it, or makes the new value of a variable from its old one (shown_partial). Violated otherwise: keys that are words are shown without quotes, so that the name is never an expression for the part (word_unquoted); 1 and '1' are shown alike (digits_clash); after x = [1], y = x and x = [1] again, the items of y are shown as those of x (rebound_wrong), after x = [1], y = x, del x as items of a variable that is gone (deleted_wrong), and after x = [x] the items of the inner list as those of the outer one (wrapped_wrong)."
  },
  {
   "property": "C164",
   "status": "partial",
   "theorems": [
    "Verif.Checked.marked_iff_partial",
    "Verif.Checked.answered_iff",
    "Verif.Checked.off_unmarked",
    "Verif.Checked.unrun_unmarked",
    "Verif.Checked.quiet_same",
    "Verif.Checked.edited_wrong",
    "Verif.Checked.twice_wrong",
    "Verif.Checked.parts_wrong",
    "Verif.Checked.created_wrong",
    "Verif.Checked.claim_false"
   ],
   "note": "Proved for cells that were run and not edited since, if no variable that they read was created, deleted or changed in place since, and every assignment that changes the declared type of such a variable gives it a value of another class and is the first one since the cell was looked at (marked_iff_partial); with the setting off nothing is marked (off_unmarked). Violated otherwise: the mark does not depend on edits, on changes of the parts of values, on creation and deletion of variables or on a second assignment between two requests (quiet_same, edited_wrong, twice_wrong, parts_wrong, created_wrong); cells that were never run are never marked (unrun_unmarked), and a request that contains one that was sent before fails altogether (answered_iff)."
  },
  {
   "property": "C165",
   "status": "partial",
   "theorems": [
    "Verif.Tagged.listed_iff",
    "Verif.Tagged.listed_partial",
    "Verif.Tagged.none_left_out",
    "Verif.Tagged.fails_iff",
    "Verif.Tagged.unrun_nothing",
    "Verif.Tagged.unnamed",
    "Verif.Tagged.taken_away_wrong",
    "Verif.Tagged.old_number_ignored",
    "Verif.Tagged.renamed_fails",
    "Verif.Tagged.claim_false"
   ],
   "note": "Proved for cells whose tags were taken away by commands only (listed_partial); no cell is ever left out (none_left_out), and what is listed is characterised exactly (listed_iff). Violated otherwise: a tag that was taken away from a cell in the notebook still has cells run again after it (taken_away_wrong). After a cell that was run without an id gets one, requests that name no cell fail with a KeyError (renamed_fails, fails_iff). Commands with the number of a run that is not the latest one of its cell do nothing (old_number_ignored)."
  },
  {
   "property": "C166",
   "status": "partial",
   "theorems": [
    "Verif.Assigned.found_iff",
    "Verif.Assigned.found_partial",
    "Verif.Assigned.own_value_missed",
    "Verif.Assigned.imports_missed",
    "Verif.Assigned.index_found",
    "Verif.Assigned.annotation_found",
    "Verif.Assigned.default_found",
    "Verif.Assigned.loop_target_found",
    "Verif.Assigned.attribute_found",
    "Verif.Assigned.found_claim_false"
   ],
   "note": "Characterised exactly for all texts (found_iff), and proved for texts in which the variable does not stand alone in a value assigned to it, nor in indices and bases of targets or defaults of lambdas, is not only annotated, and is not bound by `import x.y` or a star (found_partial). Violated otherwise: `df = clean(df)` is not found (own_value_missed), nor `import x.y` and star imports (imports_missed); found though not assigned are k in `d[k] += 1` (index_found), `x: T` (annotation_found), variables in defaults of lambdas (default_found) and in targets like `for d[k] in` (loop_target_found), and the attribute's name in `(p if c else q).x = 1` (attribute_found)."
  },
  {
   "property": "C167",
   "status": "partial",
   "theorems": [
    "Verif.Assigned.link_partial",
    "Verif.Assigned.shown_iff",
    "Verif.Assigned.statically_iff",
    "Verif.Assigned.link_stays",
    "Verif.Assigned.other_forms_stay",
    "Verif.Assigned.link_goes",
    "Verif.Assigned.link_claim_false"
   ],
   "note": "Characterised exactly (shown_iff, statically_iff), and proved if the run assigned the variable by plain statements of the cell only and the new text has none of the forms of C166 that are got wrong (link_partial). Violated otherwise: links because of variables assigned by loops, `with`, augmented or annotated assignments, nested statements, imports with a dotted name, or from their own old value stay after every edit (link_stays, other_forms_stay); if `df = f()` becomes `df = clean(df)` the link goes (link_goes)."
  },
  {
   "property": "C168",
   "status": "partial",
   "theorems": [
    "Verif.Told.never_fails",
    "Verif.Told.accepted_iff",
    "Verif.Told.declined",
    "Verif.Told.marked_iff",
    "Verif.Told.users_partial",
    "Verif.Told.recent_never",
    "Verif.Told.recent_missed",
    "Verif.Told.deps_iff",
    "Verif.Told.deps_others",
    "Verif.Told.refresh_iff",
    "Verif.Told.offered_iff",
    "Verif.Told.waits_iff",
    "Verif.Told.readers_partial",
    "Verif.Told.refresh_readers_partial",
    "Verif.Told.last_run_missed",
    "Verif.Told.readers_claim_false",
    "Verif.Told.users_claim_false",
    "Verif.Told.refresh_claim_false"
   ],
   "note": "Characterised exactly (marked_iff, refresh_iff, offered_iff, waits_iff, deps_iff), and proved for cells other than the one run last (readers_partial, refresh_readers_partial) and for variables that were neither assigned by the cell run last nor told of or refreshed since (users_partial). Violated otherwise: the variable gets the time of the cell run last, so that this cell is never offered though it read the old object (last_run_missed), and the variables it assigned are never out of date (recent_never, recent_missed); a request to refresh marks no variable at all (refresh_iff)."
  },
  {
   "property": "C169",
   "status": "proved",
   "theorems": [
    "Verif.Told.last_updated",
    "Verif.Told.named_iff",
    "Verif.Told.named_after_run",
    "Verif.Told.named_stays"
   ],
   "note": "For all histories."
  },
  {
   "property": "C170",
   "status": "partial",
   "theorems": [
    "Verif.Matchers.answer_iff",
    "Verif.Matchers.match_partial",
    "Verif.Matchers.ref_never",
    "Verif.Matchers.children_raises",
    "Verif.Matchers.any_raises",
    "Verif.Matchers.all_raises",
    "Verif.Matchers.order_matters",
    "Verif.Matchers.match_claim_false"
   ],
   "note": "Every answer about a matcher without `Ref` is right (answer_iff), and there is an answer if the matcher contains no `AnyOf` and no `Children` (match_partial). Violated otherwise: `Children` always raises an AttributeError (children_raises); `AnyOf` raises a TypeError instead of answering that nothing matches (any_raises, all_raises), and then it depends on the order in which a set is walked over whether there is a match or an exception (order_matters); `Ref` matches nothing (ref_never)."
  },
  {
   "property": "C171",
   "status": "partial",
   "theorems": [
    "Verif.Matchers.bound_sound",
    "Verif.Matchers.needed_bound",
    "Verif.Matchers.all_binds_own",
    "Verif.Matchers.any_binds_own",
    "Verif.Matchers.unmentioned_unbound",
    "Verif.Matchers.later_wins",
    "Verif.Matchers.own_name_claim_false",
    "Verif.Matchers.first_wins_claim_false"
   ],
   "note": "What names are bound to is right for all matchers without `Ref` (bound_sound), and the names of all matchers that have to match are bound, except those of `Parents` and literal paths (needed_bound, all_binds_own, any_binds_own). Violated: `Parents` does not bind its name (unmentioned_unbound, own_name_claim_false), and if several matchers of `AnyOf` match, the last one wins (later_wins, first_wins_claim_false)."
  },
  {
   "property": "C172",
   "status": "partial",
   "theorems": [
    "Verif.Loading.wanted_tracked",
    "Verif.Loading.left_after",
    "Verif.Loading.stays_out",
    "Verif.Loading.tracked_partial",
    "Verif.Loading.unload_missed",
    "Verif.Loading.gone_later",
    "Verif.Loading.flat_returns",
    "Verif.Loading.untracked_returns",
    "Verif.Loading.wanted_returns",
    "Verif.Loading.nested_breaks",
    "Verif.Loading.kernel_wanted",
    "Verif.Loading.client_told",
    "Verif.Loading.kernel_left",
    "Verif.Loading.kernel_kept",
    "Verif.Loading.own_tracked",
    "Verif.Loading.own_unload_raises",
    "Verif.Loading.track_claim_false"
   ],
   "note": "Cells after loading are always run with ipyflow and the client is always told what was asked for last; cells are run with ipyflow if and only if it was asked for last as long as no cell begun without ipyflow loads and unloads it (tracked_partial). The full claim is false (track_claim_false): if one cell does both, the next cell is still run with ipyflow (unload_missed; the one after it is not, gone_later); if the extension is unloaded in code run as a cell of its own, e.g. under %%capture, the run of the outer cell raises (nested_breaks) and the kernel keeps ipyflow's class (kernel_kept); in sessions started with ipyflow's own classes, unloading raises (own_unload_raises)."
  },
  {
   "property": "C173",
   "status": "partial",
   "theorems": [
    "Verif.Loading.keep_partial",
    "Verif.Loading.own_keeps",
    "Verif.Loading.reload_same",
    "Verif.Loading.register_has",
    "Verif.Loading.load_forgets",
    "Verif.Loading.keep_claim_false"
   ],
   "note": "Tracers stay registered in cells that do not load the extension, in all cells run with ipyflow without nested runs, and in all sessions started with ipyflow; reloading changes nothing. The full claim is false (keep_claim_false): loading the extension into a shell without ipyflow forgets all tracers but those of the configuration (load_forgets)."
  },
  {
   "property": "C174",
   "status": "partial",
   "theorems": [
    "Verif.Lifted.speaks_sound",
    "Verif.Lifted.name_speaks",
    "Verif.Lifted.attr_speaks_partial",
    "Verif.Lifted.attr_raises",
    "Verif.Lifted.item_speaks",
    "Verif.Lifted.item_missed",
    "Verif.Lifted.index_wrong",
    "Verif.Lifted.index_raises",
    "Verif.Lifted.option_wrong",
    "Verif.Lifted.choice_raises",
    "Verif.Lifted.bin_speaks",
    "Verif.Lifted.later_raises",
    "Verif.Lifted.untraced_raises",
    "Verif.Lifted.literal_raises",
    "Verif.Lifted.Witness.lift_claim_false"
   ],
   "note": "Violated: deps(l[i].n) looks for n in l and takes i for a candidate, so that it speaks about i if the value is the same object and otherwise raises; (x or y).n speaks about a global variable n; a path on which another symbol has the same object raises; arguments not evaluated first, and all arguments when the tracer is off, are not exchanged, so that the function raises. Proved: what is spoken about has the object of the argument and is mentioned by its expression; variables, paths of attributes and constant subscripts without another symbol of the same object, and subscripts that the tracer recorded."
  },
  {
   "property": "C175",
   "status": "partial",
   "theorems": [
    "Verif.Implicit.reads_partial",
    "Verif.Implicit.late_found",
    "Verif.Implicit.inner_lost",
    "Verif.Implicit.index_lost",
    "Verif.Implicit.operation_lost",
    "Verif.Implicit.before_lost",
    "Verif.Implicit.operand_lost",
    "Verif.Implicit.result_lost",
    "Verif.Implicit.again_lost",
    "Verif.Implicit.Witness.reads_claim_false"
   ],
   "note": "Violated: what a property reads is lost if another attribute follows (o.p.q), if it stands in brackets (l[o.p]) or in an operation within an argument (f(o.p + b)); what an operator defined in the notebook reads is lost for operands that are variables; what a function reads is lost when an attribute of its result is read; and what a function reads that ran before in the cell. Proved: nothing is lost where functions run only by calls, by the last attribute or subscript of a chain and by chains that are arguments, each function once in a cell."
  },
  {
   "property": "C176",
   "status": "partial",
   "theorems": [
    "Verif.Redirect.redirected_partial",
    "Verif.Redirect.direct_printed",
    "Verif.Redirect.argument_cut",
    "Verif.Redirect.appended",
    "Verif.Redirect.answer_lost",
    "Verif.Redirect.odd_word",
    "Verif.Redirect.second_blank",
    "Verif.Redirect.class_tag",
    "Verif.Redirect.Witness.redirect_claim_false"
   ],
   "note": "Proved for every word besides those that print on their own, every argument without `>` and every file that can be opened. Violations proved for all inputs: `show_tags` and `register_annotations` print although a file is named and write nothing (direct_printed); an argument is cut at its first `>` (argument_cut, `%flow tag a>b` tags `a`); `>> f` writes a file named `> f` (appended); with no file name or one that cannot be opened the command has taken effect, the answer is lost and an exception raised (answer_lost); `dag>f`, a tab or two blanks give only the usage (odd_word, second_blank). The dashed `make-slice` misses the treatment of tags given as classes."
  },
  {
   "property": "C177",
   "status": "partial",
   "theorems": [
    "Verif.Failing.told_iff",
    "Verif.Failing.failures_untold",
    "Verif.Failing.told_stops",
    "Verif.Failing.failed_goes_on",
    "Verif.Failing.failed_same",
    "Verif.Failing.stopped_unasked",
    "Verif.Failing.setup_unbound",
    "Verif.Failing.rewriter_untold",
    "Verif.Failing.counter_counts",
    "Verif.Failing.raised_isError",
    "Verif.Failing.uncompiled_no_error",
    "Verif.Failing.Witness.told_claim_false",
    "Verif.Failing.Witness.stop_claim_false"
   ],
   "note": "The claim is false in both directions (told_claim_false, stop_claim_false). Proved for all histories: the kernel says that the last execution was an error exactly if ipyflow itself raised in it (told_iff), so what cells raise is never told (failures_untold) and the client goes on exactly as if they had not (failed_goes_on, failed_same), while a cell that ran through ends the reactive run if a hook raised afterwards (stopped_unasked). The client does stop when told (told_stops); the counter of exceptions counts those of ipyflow (counter_counts); code that could not be compiled does not count as an error of the cell (uncompiled_no_error)."
  },
  {
   "property": "C178",
   "status": "partial",
   "theorems": [
    "Verif.Callee.callee_partial",
    "Verif.Callee.taken_for_named",
    "Verif.Callee.busy_wrong",
    "Verif.Callee.argument_wrong",
    "Verif.Callee.first_statement_wrong",
    "Verif.Callee.lambda_wrong",
    "Verif.Callee.returned_right",
    "Verif.Callee.rebound_wrong",
    "Verif.Callee.decorated_wrong",
    "Verif.Callee.earlier_wrong",
    "Verif.Callee.global_wrong",
    "Verif.Callee.Witness.callee_claim_false"
   ],
   "note": "Proved of tidy histories: no variable is bound twice, and functions are called by variables that have them from their definitions, or are the only functions of their statements. False in general, proved for all cases: the tracer goes by the variable the last call was written with, so a property or an operator that runs for an argument, or in the first statement of a body, and a function called with the value of a lambda are taken for another function; variables bound anew keep the scope of the old function; decorated functions, all but the last function of a statement and functions declared global are looked up in the wrong scope."
  },
  {
   "property": "C179",
   "status": "partial",
   "theorems": [
    "Verif.Resume.generators_partial",
    "Verif.Resume.gone_on_stores",
    "Verif.Resume.gone_on_wrong",
    "Verif.Resume.own_not_recorded",
    "Verif.Resume.gone_on_in_call",
    "Verif.Resume.gone_on_reads",
    "Verif.Resume.gone_on_reads_wrong",
    "Verif.Resume.again_unrecorded",
    "Verif.Resume.Witness.generators_claim_false"
   ],
   "note": "Proved where generators touch no variables after their first yield, whatever else they do. False otherwise, proved for all such histories: the statement of the yield is not known to belong to a function, so the rest of the generator is taken to run in the scope of the code that resumes it; its assignments are recorded as assignments to the notebook's (or the caller's) variables of that name, its reads as reads of those, and from the second time at the same yield nothing is recorded."
  },
  {
   "property": "C180",
   "status": "proved",
   "theorems": [
    "Verif.Sched.new_ready_exact",
    "Verif.Sched.ready_told"
   ],
   "note": "The cells to check are assumed to be listed once each."
  },
  {
   "property": "C181",
   "status": "proved",
   "theorems": [
    "Verif.Sched.forced_exact"
   ],
   "note": "Which reads count as reactive or cascading is in C94 and C118."
  },
  {
   "property": "C182",
   "status": "proved",
   "theorems": [
    "Verif.Sched.links_exact"
   ],
   "note": "Exact over the recorded entries; which entries are recorded is in C11, C12 and C57."
  },
  {
   "property": "C183",
   "status": "partial",
   "theorems": [
    "Verif.Resend.unbroken_in_order_partial",
    "Verif.Resend.at_most_once",
    "Verif.Resend.nothing_after_disconnect",
    "Verif.Resend.first_overtaken",
    "Verif.Resend.never_in_order",
    "Verif.Resend.kept_is_forgotten",
    "Verif.Resend.in_order_claim_false"
   ],
   "note": "In order while the kernel lives; at most once always. Violated after a restart: the first message is kept until the new channel is answered, while later ones are sent at once, so it is overtaken by them and by the message about the active cell; a second restart before the answer drops it for good."
  },
  {
   "property": "C184",
   "status": "partial",
   "theorems": [
    "Verif.Rounds.asked_iff",
    "Verif.Rounds.asked_once",
    "Verif.Rounds.executed_iff",
    "Verif.Rounds.asked_partial",
    "Verif.Rounds.twice_never_asked",
    "Verif.Rounds.overlap_never_asked",
    "Verif.Rounds.text_never_asked",
    "Verif.Rounds.rerun_never_asked",
    "Verif.Rounds.asked_claim_false"
   ],
   "note": "Exactly once when every cell has ended as the client waited for it. Violated: if a cell is in the round twice (in lazy mode with batches, a cell that is both forced and drawn along), is no code cell, or is run again before its reply, one promise is rejected and no schedule is ever asked for, so the reactive run stops."
  },
  {
   "property": "C185",
   "status": "partial",
   "theorems": [
    "Verif.Addons.kept_partial",
    "Verif.Addons.none_left",
    "Verif.Addons.goes_through",
    "Verif.Addons.traced_undone",
    "Verif.Addons.extension_lost",
    "Verif.Addons.Witness.kept_claim_false"
   ],
   "note": "Nothing of ipyflow's own is ever left in the lists, and changes made in runs that are not traced are kept. Violated: the lists are replaced during a traced cell and the old ones put back at its end, so whatever the cell registered or removed is undone; an extension loaded in a traced cell counts as loaded and loading it again does nothing."
  },
  {
   "property": "C186",
   "status": "partial",
   "theorems": [
    "Verif.Embed.restored_partial",
    "Verif.Embed.restored_none",
    "Verif.Embed.raising_left",
    "Verif.Embed.prompts_left",
    "Verif.Embed.unloaded_lost",
    "Verif.Embed.Witness.restored_claim_false"
   ],
   "note": "Shell and prompts come back after any number of sessions that do not raise, whatever is embedded in them. Violated: a session that raises (%exit_raise) leaves its own shell as that of the program; a program without prompts has some afterwards; after %unload_ext ipyflow the shell is still registered with ipyflow's class, so embed raises MultipleInstanceError and the program is left without a shell."
  },
  {
   "property": "C187",
   "status": "proved",
   "theorems": [
    "Verif.Registry.Marks.reactive_lookup_exact"
   ],
   "note": "For every history of the registry's operations, against a story that knows only what the user did (no versions, counters or tables). Hypothesis: the host's counters run ahead of the kernel's, as in the other theorems about the registry."
  },
  {
   "property": "C188",
   "status": "partial",
   "theorems": [
    "Verif.Bumps.forced_run_partial",
    "Verif.Bumps.forced_next_partial",
    "Verif.Bumps.slice_only",
    "Verif.Bumps.cascade_once",
    "Verif.Bumps.swallowed",
    "Verif.Bumps.text_swallowed",
    "Verif.Bumps.overlap_swapped",
    "Verif.Bumps.Witness.forced_claim_false"
   ],
   "note": "Holds as long as slices are run with a code cell active and not while cells run reactively one at a time, and nothing overlaps. Violated: in that mode the commands run nothing but count, so that each use makes the forced cells of one later run be discarded (for any number of uses); the same with a cell active that is not a code cell; and if a slice is run while other cells are running, the forced cells of those are discarded and those of the slice run."
  },
  {
   "property": "C189",
   "status": "partial",
   "theorems": [
    "Verif.Dirty.stale_partial",
    "Verif.Dirty.stale_new_partial",
    "Verif.Dirty.run_settles",
    "Verif.Dirty.taken_back",
    "Verif.Dirty.reconnected",
    "Verif.Dirty.too_soon",
    "Verif.Dirty.Witness.stale_claim_false"
   ],
   "note": "Holds if cells are only run when the notebook is at rest, and whenever it comes to rest with a text it did not have before. Violated: a cell that is edited, run and edited back before the notebook comes to rest is never taken to be edited; nor is any cell after a new connection until the notebook comes to rest again, nor within half a second of an edit."
  },
  {
   "property": "C190",
   "status": "partial",
   "theorems": [
    "Verif.Origin.numbered",
    "Verif.Origin.texts_partial",
    "Verif.Origin.skipped_lost",
    "Verif.Origin.elsewhere",
    "Verif.Origin.others_keep",
    "Verif.Origin.Witness.origin_claim_false"
   ],
   "note": "Proved where the names of the code have the numbers of the runs (numbered), and with names by text as long as the last run of the text was not skipped (texts_partial); runs of other texts change nothing (others_keep). Violated with names by text: after a skipped run the functions of the text are lost or taken to be in the statement run in place of the cell (skipped_lost, Witness.origin_claim_false), and the position moves to the last run of the text in whatever cell (elsewhere)."
  },
  {
   "property": "C191",
   "status": "partial",
   "theorems": [
    "Verif.Phantom.found_partial",
    "Verif.Phantom.own_wrong",
    "Verif.Phantom.fails",
    "Verif.Phantom.switch_only_breaks",
    "Verif.Phantom.Witness.phantom_claim_false"
   ],
   "note": "Proved for what is computed per cell, for other cells than the cell itself, if all used symbols were set by runs (found_partial). Violated: the cell itself is found with another cell's run (own_wrong), a symbol no run has set makes the whole check fail (fails), and the answer never has what was computed (switch_only_breaks, Witness.phantom_claim_false)."
  },
  {
   "property": "C192",
   "status": "partial",
   "theorems": [
    "Verif.Inherit.direct_partial",
    "Verif.Inherit.base_lost",
    "Verif.Inherit.assigned_depends",
    "Verif.Inherit.hidden_depends",
    "Verif.Inherit.assigned_after_read",
    "Verif.Inherit.Witness.inherit_claim_false"
   ],
   "note": "An attribute that is read for the first time, or the first time after it was deleted, when its value is the one of the object's own class depends on exactly that (direct_partial), and an assignment after a read removes the dependency (assigned_after_read). Violated: if the value comes from a class further up, no dependency on a class is recorded, then or later (base_lost, inherit_claim_false); an attribute of an object that is assigned before it is read, or set by untraced code, depends on the attribute of the class although its value is its own (assigned_depends, hidden_depends)."
  },
  {
   "property": "C193",
   "status": "partial",
   "theorems": [
    "Verif.Memo.reuse_partial",
    "Verif.Memo.reuse_value",
    "Verif.Memo.reuse_violated"
   ],
   "note": "Each variable that the reused run assigned is bound to the same object again and counts as updated by the present run, all others are left alone, and the value is the one of then if no run in between changed the object (reuse_partial). Violated otherwise: the variable has whatever the object holds now (reuse_value), as after x = [] in a memoized cell, x.append(1) elsewhere, and the memoized cell again (reuse_violated)."
  },
  {
   "property": "C194",
   "status": "partial",
   "theorems": [
    "Verif.Span.start_partial",
    "Verif.Span.end_exact",
    "Verif.Span.last_exact",
    "Verif.Span.one_char_empty",
    "Verif.Span.Witness.span_claim_false"
   ],
   "note": "The start is right exactly if there is only ASCII before the use in its line (start_partial). Violated otherwise, since bytes are sent for characters. The end is right exactly if there is, up to it, one character of two bytes besides ASCII, hence never in lines of ASCII (end_exact, span_claim_false), since one is subtracted; the range of a name of one letter is empty (one_char_empty). For those who count the last character in, the end is right exactly in ASCII (last_exact)."
  },
  {
   "property": "C195",
   "status": "partial",
   "theorems": [
    "Verif.Unseen.not_older",
    "Verif.Unseen.exact_partial",
    "Verif.Unseen.stored_newer",
    "Verif.Unseen.bound_newer",
    "Verif.Unseen.Witness.unseen_claim_false"
   ],
   "note": "The element never counts as older than its last change (not_older), and it counts as exactly as new if since then nothing was stored in the object and no variable was bound to it (exact_partial). Violated otherwise: after a store to another element, or the binding of a further variable, it counts as at least as new as that (stored_newer, bound_newer, unseen_claim_false)."
  },
  {
   "property": "C196",
   "status": "partial",
   "theorems": [
    "Verif.Settings.trace_exact",
    "Verif.Settings.trace_count",
    "Verif.Settings.highlights_exact",
    "Verif.Settings.syntax_partial",
    "Verif.Settings.syntax_ignored",
    "Verif.Settings.syntax_suffix",
    "Verif.Settings.only_kept"
   ],
   "note": "Proved for messages (trace_exact, trace_count) and highlights (highlights_exact). Violated by the syntax transforms: enable, disable and words in upper case are ignored (syntax_ignored), and every word that merely ends in on or off is obeyed (syntax_suffix); with the four exact words, and words that end in none of them, all is as expected (syntax_partial). only_kept shows that the mode with syntax transforms only is left by %flow on or enable alone."
  },
  {
   "property": "C197",
   "status": "partial",
   "theorems": [
    "Verif.Header.memoized_partial",
    "Verif.Header.not_memoized",
    "Verif.Header.other_magic",
    "Verif.Header.quote_fails",
    "Verif.Header.help_exits",
    "Verif.Header.Witness.memoize_claim_false"
   ],
   "note": "Proved for documented options and words that are no options (memoized_partial), and for cells that do not begin with a percent sign (not_memoized). Violated: a magic whose name merely begins with %%memoize is taken for it and its line is dropped (other_magic), a word with a single quotation mark raises an error (quote_fails), -h and --help ask the program to exit (help_exits)."
  },
  {
   "property": "C198",
   "status": "partial",
   "theorems": [
    "Verif.Asked.known_partial",
    "Verif.Asked.answers_nearest",
    "Verif.Asked.index_dropped",
    "Verif.Asked.mixed_up",
    "Verif.Asked.call_answers_function",
    "Verif.Asked.text_fails",
    "Verif.Asked.Witness.asked_claim_false"
   ],
   "note": "Proved for what is known, as long as no object has an attribute and an element of the same name (known_partial). Violated: about what is not known the answer is about the longest known part (answers_nearest), names and calculations between brackets are passed over, so that x[i].a is answered with x.a (index_dropped), attributes and elements of the same name are mixed up (mixed_up), calls are answered with the function (call_answers_function), and comments, other statements and other expressions make the command fail (text_fails)."
  },
  {
   "property": "C199",
   "status": "partial",
   "theorems": [
    "Verif.Waiters.global_partial",
    "Verif.Waiters.all_partial",
    "Verif.Waiters.refused",
    "Verif.Waiters.rest_ignored",
    "Verif.Waiters.one_fails",
    "Verif.Waiters.Witness.show_claim_false"
   ],
   "note": "Proved where all symbols gone through can be judged: without words or with global exactly the global variables that wait and have a name are named, each once (global_partial), with all exactly the symbols that wait and have a name (all_partial); a line that begins with another word is refused (refused). Violated: what follows the first word is passed over instead of refused (rest_ignored), and one symbol whose waiting cannot be judged, even one without a name, makes the whole command fail (one_fails). What is missing: how waiting is judged (C87, C88), the text of the answer."
  }
 ]
}