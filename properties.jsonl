{"id": "C01", "title": "A cell is never offered as ready and waiting at once", "statement": "In the schedule computed after a cell runs, the set of ready cells and the set of waiting cells are disjoint, and every newly-ready cell is a ready cell.", "quantifier": "every notebook, every settings combination (schedule kind, flow order, slicing contexts), every result of checking each cell", "why_tests_cant": "The sets are filled by a loop over all cells followed by a fixpoint; a test fixes one notebook and one loop order.", "anchors": ["core/ipyflow/frontend.py:FrontendCheckerResult._check_one_cell", "core/ipyflow/frontend.py:FrontendCheckerResult._compute_readiness", "core/ipyflow/frontend.py:FrontendCheckerResult._compute_dag_based_waiters"]}
{"id": "C02", "title": "DAG-based waiting cells are exactly the cells downstream of a stale cell", "statement": "Under the DAG or hybrid schedule a checked cell is reported waiting if and only if there is a path of one or more dependency edges to it from a cell that needs re-running; the loop that computes this always stops.", "quantifier": "every dependency graph over any number of cells, any enabled slicing contexts, any order in which cells are checked", "why_tests_cant": "Exactness of a fixpoint over an arbitrary graph, and termination, cannot be sampled.", "anchors": ["core/ipyflow/frontend.py:FrontendCheckerResult._compute_dag_based_waiters"]}
{"id": "C03", "title": "In-order scheduling never deadlocks", "statement": "With in-order semantics, if at least one cell needs re-running then the schedule offers at least one ready cell, so a reactive run always makes progress.", "quantifier": "every notebook with in-order semantics, every dependency graph recorded", "why_tests_cant": "Progress is an existence statement over all graphs; a test can only show one notebook that is not stuck.", "anchors": ["core/ipyflow/frontend.py:FrontendCheckerResult._compute_dag_based_waiters", "core/ipyflow/data_model/cell.py:Cell.directional_parents"]}
{"id": "C04", "title": "In-order reactivity never runs backwards", "statement": "With in-order semantics no cell at or above the last executed cell is reported newly ready, and under any semantics a cell that has never been executed is not reported newly ready.", "quantifier": "every notebook, last executed cell, and outcome of readiness analysis for each cell", "why_tests_cant": "A single counterexample among unboundedly many notebooks would re-run a cell the user did not ask to re-run.", "anchors": ["core/ipyflow/frontend.py:FrontendCheckerResult._check_one_cell", "core/ipyflow/frontend.py:FrontendCheckerResult._compute_readiness"]}
{"id": "C05", "title": "Waiter links are the exact transitive closure up to non-waiting cells", "statement": "After a schedule is computed, waiter_links[w] for a waiting cell w is exactly the set of non-waiting cells that can be reached from w by following 'is made ready by' links through waiting cells; the loop stops.", "quantifier": "every finite relation of initial links and every set of waiting cells, for every iteration order of the set of waiting cells", "why_tests_cant": "The result depends on iteration order of a hash set and on a length-based change test; only a proof covers all of them.", "anchors": ["core/ipyflow/frontend.py:FrontendCheckerResult._compute_waiter_and_ready_maker_links"]}
{"id": "C06", "title": "Ready-maker links mirror waiter links", "statement": "After a schedule is computed, cell w is listed under ready_maker_links[r] if and only if r is listed under waiter_links[w] for a waiting w; no waiting cell is ever listed as a ready maker.", "quantifier": "every initial link relation and waiting set", "why_tests_cant": "A relation-inverse law over all inputs.", "anchors": ["core/ipyflow/frontend.py:FrontendCheckerResult._compute_waiter_and_ready_maker_links"]}
{"id": "C07", "title": "In-order ready makers lie above the waiting cell, and the cell just run is never one", "statement": "With in-order semantics every cell in the final waiter_links[w] has a strictly smaller position than w; the last executed cell is never in any waiter_links set.", "quantifier": "every notebook state, schedule kind, last executed cell", "why_tests_cant": "The property must survive the transitive closure step for arbitrary graphs.", "anchors": ["core/ipyflow/frontend.py:FrontendCheckerResult._compute_ready_making_cells", "core/ipyflow/frontend.py:FrontendCheckerResult._compute_waiter_and_ready_maker_links"]}
{"id": "C08", "title": "cell_children is the inverse of cell_parents and the in-order graph is acyclic", "statement": "In every schedule result, c is in cell_children[p] iff p is in cell_parents[c]; every checked cell is a key of both maps; with in-order semantics every parent is strictly above its child, hence the reported graph has no cycle.", "quantifier": "every notebook, every per-context edge table, every filter outcome", "why_tests_cant": "The client walks this graph to decide what to run; consistency has to hold for all graphs.", "anchors": ["core/ipyflow/frontend.py:FrontendCheckerResult._compute_filtered_parents"]}
{"id": "C09", "title": "Parent selection by timestamp never fails and keeps the lowest parent", "statement": "Computing readiness or filtered parents never raises KeyError for the latest-parent-by-timestamp table, and the table entry for a timestamp is a parent whose position is maximal among the parents sharing a symbol with that timestamp.", "quantifier": "every cell, every recorded edge table, every set of removed symbols", "why_tests_cant": "Absence of an exception over all edge tables, and optimality of a running maximum.", "anchors": ["core/ipyflow/data_model/cell.py:Cell.get_latest_parent_by_ts_map", "core/ipyflow/frontend.py:FrontendCheckerResult._compute_readiness", "core/ipyflow/frontend.py:FrontendCheckerResult._compute_filtered_parents"]}
{"id": "C10", "title": "The two stale-parent indexes are transposes of each other", "statement": "p is in stale_parents_by_executed_cell_by_child[child][executed] iff p is in stale_parents_by_child_by_executed_cell[executed][child], and then executed comes strictly before child in notebook order and p is a recorded parent of child.", "quantifier": "every notebook in position order and every edge/write table", "why_tests_cant": "Two nested indexes filled by one loop; equality for all inputs.", "anchors": ["core/ipyflow/frontend.py:FrontendCheckerResult._compute_stale_parent_makers"]}
{"id": "C11", "title": "Recorded parent edges always have a matching child edge", "statement": "After any sequence of adding, removing and replacing parent edges and of re-running cells, whenever cell c lists parent p with symbol s, cell p lists child c with symbol s.", "quantifier": "every sequence of edge operations and re-executions on any number of cells", "why_tests_cant": "An invariant over unbounded histories.", "anchors": ["core/ipyflow/slicing/mixin.py:SliceableMixin.add_parent_edges", "core/ipyflow/slicing/mixin.py:SliceableMixin.remove_parent_edges", "core/ipyflow/slicing/mixin.py:SliceableMixin.replace_parent_edges", "core/ipyflow/data_model/cell.py:Cell.create_and_track"]}
{"id": "C12", "title": "No cell depends on itself and no two cells depend on each other in one context", "statement": "After any sequence of adding and removing parent edges and of re-running cells, no cell is its own parent and no two cells are each other's parent within one slicing context.", "quantifier": "every sequence of edge operations", "why_tests_cant": "An invariant over unbounded histories.", "anchors": ["core/ipyflow/slicing/mixin.py:SliceableMixin.add_parent_edges"]}
{"id": "C13", "title": "Slices are dependency closed", "statement": "A slice contains each requested seed, and for every element and each of its recorded parents it contains the latest version of that parent not newer than the element.", "quantifier": "every edge table (both contexts), version chain and seed list", "why_tests_cant": "Completeness of a recursive closure with a mutable visited set for all graphs, including cyclic ones.", "anchors": ["core/ipyflow/slicing/mixin.py:SliceableMixin._make_slice_helper", "core/ipyflow/slicing/mixin.py:SliceableMixin.make_multi_slice"]}
{"id": "C14", "title": "Slices contain nothing unnecessary", "statement": "Every element of a slice is a seed or is reached from a seed by a chain of recorded parent edges (each resolved to the latest version not newer than its user).", "quantifier": "every edge table, version chain, seed list", "why_tests_cant": "Minimality over all graphs.", "anchors": ["core/ipyflow/slicing/mixin.py:SliceableMixin._make_slice_helper"]}
{"id": "C15", "title": "A slice never contains code from the future", "statement": "No element of the slice of a seed has a timestamp greater than the seed's (unless a statement is marked as an override).", "quantifier": "every edge table, version chain and seed", "why_tests_cant": "Requires a descent argument along all dependency chains.", "anchors": ["core/ipyflow/slicing/mixin.py:SliceableMixin._make_slice_helper"]}
{"id": "C16", "title": "Slices are returned in execution order without duplicates", "statement": "The list returned by make_multi_slice is sorted by timestamp and lists no element twice.", "quantifier": "every edge table and seed list", "why_tests_cant": "All orders in which the closure set can be filled.", "anchors": ["core/ipyflow/slicing/mixin.py:SliceableMixin.make_multi_slice"]}
{"id": "C17", "title": "Slicing several seeds is the union of slicing each", "statement": "The slice of a list of seeds contains exactly the elements of the slices of the individual seeds; it does not depend on the order or repetition of seeds, and slicing a slice's elements again adds nothing. With seed_only the result is exactly the seeds.", "quantifier": "every edge table and every pair of seed lists", "why_tests_cant": "The visited set is shared between seeds, so independence of order is not evident and cannot be enumerated.", "anchors": ["core/ipyflow/slicing/mixin.py:SliceableMixin.make_multi_slice"]}
{"id": "C18", "title": "Slice text lists every sliced element once, in order, under its own cell", "statement": "In the text of a slice each sliced statement's text occurs in exactly one cell block, the block of the cell that contains it, blocks are in increasing cell number, and inside a block statements keep their order.", "quantifier": "every closure list and text assignment", "why_tests_cant": "A grouping law for arbitrary lists.", "anchors": ["core/ipyflow/slicing/mixin.py:SliceableMixin.make_cell_dict_from_closure", "core/ipyflow/slicing/mixin.py:Slice._get_slice_text_from_slice"]}
{"id": "C19", "title": "Slicing seeds skipped by memoization are redirected to the execution that produced the value", "statement": "When a slice is formatted, a seed whose cell was skipped because of memoization is replaced by the execution it was memoized from (keeping the statement number) and every other seed is kept.", "quantifier": "every set of seeds and every memoization record", "why_tests_cant": "A law over all seed sets.", "anchors": ["core/ipyflow/slicing/mixin.py:SliceableMixin._process_memoized_seeds"]}
{"id": "C20", "title": "Execution counters identify executions", "statement": "Across any sequence of executions, counters assigned to executions strictly increase, looking up a counter returns the cell object that ran at that counter, the history of a cell id lists its execution counters in increasing order, and the chain of previous versions of a cell goes strictly back in time and ends.", "quantifier": "every sequence of tracked executions and placeholder creations, with any monotone host counter", "why_tests_cant": "An invariant over unbounded histories.", "anchors": ["core/ipyflow/data_model/cell.py:Cell.create_and_track", "core/ipyflow/data_model/cell.py:Cell.at_counter", "core/ipyflow/data_model/cell.py:Cell.from_id"]}
{"id": "C21", "title": "Position index agrees with the notebook order sent by the client", "statement": "After the client reports an order of cells, the cell found at a position is the cell the client placed there, cells that vanished are ordered after all present cells, and iterating in position order visits exactly the present cells in order.", "quantifier": "every sequence of reported orders", "why_tests_cant": "Depends on the previous report; needs induction over report histories.", "anchors": ["core/ipyflow/data_model/cell.py:Cell.set_cell_positions", "core/ipyflow/data_model/cell.py:Cell.at_position", "core/ipyflow/data_model/cell.py:Cell.iterate_over_notebook_in_position_order"]}
{"id": "C22", "title": "Renaming a cell preserves the dependency graph", "statement": "Assigning a real id to a placeholder cell yields the same graph with that id substituted everywhere: parents and children of all cells, positions, tag indexes and the id lookup.", "quantifier": "every registry state and fresh id", "why_tests_cant": "An isomorphism over all graphs.", "anchors": ["core/ipyflow/data_model/cell.py:Cell.update_id"]}
{"id": "C23", "title": "Inserting into a list keeps per-element symbols attached to their elements", "statement": "After lst.insert(i, x) the symbol that described element j describes element j for j<i and element j+1 for j>=i.", "quantifier": "every list length, index and set of tracked element symbols", "why_tests_cant": "Off-by-one and overwrite errors in the in-place shift show only at particular lengths/indices/sparsity.", "anchors": ["core/ipyflow/data_model/namespace.py:Namespace.shuffle_symbols_upward_from", "core/ipyflow/tracing/external_calls/list_handlers.py:ListInsert"]}
{"id": "C24", "title": "Deleting from a list keeps per-element symbols attached to their elements", "statement": "After del lst[i] or lst.pop(i) or lst.remove(v), the symbol of the removed element is gone, the symbol that described element j still describes it for j<i and describes element j-1 for j>i.", "quantifier": "every list length, every valid index including negative ones, and set of tracked element symbols", "why_tests_cant": "Same as insertion; negative indices need the all-index statement.", "anchors": ["core/ipyflow/data_model/namespace.py:Namespace.delete_symbol_for_name", "core/ipyflow/data_model/namespace.py:Namespace._shuffle_symbols_downward_to", "core/ipyflow/tracing/external_calls/list_handlers.py:ListPop"]}
{"id": "C25", "title": "Memoized results are reused only when nothing the cell read has changed", "statement": "If a memoized run is reused, the reused run has the same code, is strictly earlier, did not fail, and for every input symbol either its current value compares equal to the recorded one, or it has not been rewritten since.", "quantifier": "every history of memoized executions and every current state of symbols", "why_tests_cant": "Stale cache hits appear only for particular histories.", "anchors": ["core/ipyflow/data_model/cell.py:Cell.get_memoized_counter", "core/ipyflow/data_model/cell.py:Cell._maybe_memoize_params", "core/ipyflow/data_model/symbol.py:Symbol.make_memoize_comparable"]}
{"id": "C26", "title": "Value comparison for memoization distinguishes different values", "statement": "Two values whose memoization comparables compare equal are equal as Python values of the supported kinds (numbers, strings, lists, tuples, sets, dicts, nested).", "quantifier": "every pair of values of any nesting", "why_tests_cant": "Structural induction over unbounded values.", "anchors": ["core/ipyflow/data_model/symbol.py:Symbol.make_memoize_comparable_for_obj", "core/ipyflow/data_model/symbol.py:Symbol._make_list_eq"]}
{"id": "C27", "title": "Symbol dependency edges are mutual and irreflexive", "statement": "After any sequence of assignments, mutations, deletions and collections, among the symbols not collected, a symbol a lists b as a dependency iff b lists a as a user, with the same recorded times, and no symbol depends on itself.", "quantifier": "every sequence of dependency updates and garbage collections", "why_tests_cant": "An invariant over unbounded histories.", "anchors": ["core/ipyflow/data_model/symbol.py:Symbol.update_deps", "core/ipyflow/data_model/symbol.py:Symbol.collect_self_garbage", "core/ipyflow/flow.py:NotebookFlow.add_data_dep"]}
{"id": "C28", "title": "Overwriting assignment replaces dependencies exactly", "statement": "After x is assigned from a set D of symbols, the dependencies of x are exactly D without x itself; after an augmenting update they are the old ones plus D without x.", "quantifier": "every previous graph and every D", "why_tests_cant": "All previous graphs.", "anchors": ["core/ipyflow/data_model/symbol.py:Symbol.update_deps"]}
{"id": "C29", "title": "Garbage collection leaves no reference to a collected symbol", "statement": "After garbage collection no live symbol lists a collected symbol among its dependencies or users, no scope or alias entry yields one, and live-to-live edges are unchanged.", "quantifier": "every symbol graph and every set of garbage symbols", "why_tests_cant": "All graphs.", "anchors": ["core/ipyflow/flow.py:NotebookFlow.gc", "core/ipyflow/data_model/symbol.py:Symbol.mark_garbage", "core/ipyflow/data_model/symbol.py:Symbol.collect_self_garbage"]}
{"id": "C30", "title": "The alias table knows exactly which symbols refer to an object", "statement": "After any sequence of symbol creations, rebinding to new objects, and garbage collections, a symbol is listed as an alias of an object iff it currently refers to it.", "quantifier": "every operation sequence", "why_tests_cant": "An invariant over unbounded histories.", "anchors": ["core/ipyflow/data_model/symbol.py:Symbol.update_obj_ref", "core/ipyflow/data_model/symbol.py:Symbol._handle_aliases", "core/ipyflow/data_model/symbol.py:Symbol.collect_self_garbage"]}
{"id": "C31", "title": "Staleness propagation terminates on every graph, cyclic ones included", "statement": "Propagating a change through dependency edges and namespaces always finishes and handles each symbol a bounded number of times.", "quantifier": "every symbol graph including cycles through namespaces and aliases", "why_tests_cant": "Non-termination would only show on particular cyclic graphs.", "anchors": ["core/ipyflow/data_model/utils/update_protocol.py:UpdateProtocol.__call__", "core/ipyflow/data_model/utils/update_protocol.py:UpdateProtocol._propagate_waiting_to_deps"]}
{"id": "C32", "title": "Staleness propagation never marks the right-hand side or what the statement itself updated", "statement": "A symbol that was updated by this cell or statement, and a symbol on the right-hand side of the assignment, is not newly marked stale by it.", "quantifier": "every graph and every assignment", "why_tests_cant": "All graphs.", "anchors": ["core/ipyflow/data_model/utils/update_protocol.py:UpdateProtocol.__call__", "core/ipyflow/data_model/utils/update_protocol.py:UpdateProtocol._propagate_waiting_to_deps"]}
{"id": "C33", "title": "Every user of a changed symbol is told", "statement": "Every symbol reachable from the changed symbol along user edges, through symbols not on the right-hand side and not updated by the same statement, is visited by propagation and, if eligible, becomes waiting.", "quantifier": "every graph", "why_tests_cant": "Completeness of a graph traversal with shared visited set.", "anchors": ["core/ipyflow/data_model/utils/update_protocol.py:UpdateProtocol._propagate_waiting_to_deps", "core/ipyflow/data_model/utils/update_protocol.py:UpdateProtocol._non_class_to_instance_children"]}
{"id": "C34", "title": "Live-reference analysis is sound for straight-line and branching code", "statement": "If some execution path of a cell reads a variable before writing it, that variable is reported live.", "quantifier": "every program of the supported statement forms, nested to any depth, and every path through it", "why_tests_cant": "Paths and programs are unbounded.", "anchors": ["core/ipyflow/analysis/live_refs.py:ComputeLiveSymbolRefs"]}
{"id": "C35", "title": "Dead symbols are definitely assigned", "statement": "A variable reported dead (definitely assigned) by the analysis is written on every execution path of the cell.", "quantifier": "every program of the supported statement forms and every path", "why_tests_cant": "Paths and programs are unbounded.", "anchors": ["core/ipyflow/analysis/live_refs.py:ComputeLiveSymbolRefs.generic_visit_branch_or_loop"]}
{"id": "C36", "title": "Live-reference analysis terminates", "statement": "Checking a cell for live references always returns, for every cell, including cells that define and call functions.", "quantifier": "every program including mutually recursive function definitions", "why_tests_cant": "Termination.", "anchors": ["core/ipyflow/analysis/live_refs.py:ComputeLiveSymbolRefs.visit_Call", "core/ipyflow/analysis/live_refs.py:_compute_call_chain_live_symbols_and_cells"]}
{"id": "C37", "title": "Every client request gets at most one well-formed response", "statement": "For each request of a known type over an open channel, exactly one response is sent unless the handler opts out; it always carries the request type and a success flag, and a handler exception yields success=false with the error text; unknown types produce no response.", "quantifier": "every request, handler table and handler behaviour including exceptions", "why_tests_cant": "All handler behaviours.", "anchors": ["core/ipyflow/comm_manager.py:CommManager.handle", "core/ipyflow/comm_manager.py:CommManager.register_comm_handler"]}
{"id": "C38", "title": "The active-cell marker is always cleared after a schedule request", "statement": "After a schedule computation request, whether it succeeds or fails, no cell is left marked as active.", "quantifier": "every request and failure point", "why_tests_cant": "Every failure point inside the handler.", "anchors": ["core/ipyflow/comm_manager.py:CommManager.handle_compute_exec_schedule"]}
{"id": "C39", "title": "Debounced calls: the last call of a burst always fires, exactly once", "statement": "For any timing of calls, each burst of calls closer together than the wait time results in exactly one execution, with the arguments of the last call, and the result flag tells whether a new burst was started.", "quantifier": "every sequence of call times and timer firings", "why_tests_cant": "Unbounded schedules.", "anchors": ["core/ipyflow/utils/misc_utils.py:debounce"]}
{"id": "C40", "title": "Placeholder cells receive distinct real ids with equal content", "statement": "When the client reports cell contents, each placeholder cell receives at most one real id, distinct placeholders receive distinct ids, an id already known is never given away, and the content matches.", "quantifier": "every set of placeholders and client report", "why_tests_cant": "All reports.", "anchors": ["core/ipyflow/comm_manager.py:CommManager._handle_notify_content_changed_impl"]}
{"id": "C41", "title": "An invalid setting value leaves settings unchanged", "statement": "A magic command with an unrecognised mode, schedule, direction or reactivity value changes no setting.", "quantifier": "every string", "why_tests_cant": "All strings.", "anchors": ["core/ipyflow/line_magics.py:set_exec_mode", "core/ipyflow/line_magics.py:set_exec_schedule", "core/ipyflow/line_magics.py:set_flow_direction", "core/ipyflow/line_magics.py:set_reactivity", "core/ipyflow/config.py:EnumWithDefault"]}
{"id": "C42", "title": "Tag lookups agree with cell tags", "statement": "After any sequence of executions and tag/untag commands, looking up a tag returns exactly the current cells that carry it.", "quantifier": "every sequence of operations", "why_tests_cant": "An invariant over unbounded histories.", "anchors": ["core/ipyflow/line_magics.py:tag", "core/ipyflow/data_model/cell.py:Cell.create_and_track", "core/ipyflow/data_model/cell.py:Cell.from_tag"]}
{"id": "C43", "title": "A user interrupt cannot be swallowed forever", "statement": "For each exception handler in user code, at most one keyboard interrupt is swallowed if it names KeyboardInterrupt explicitly, and none if it catches it implicitly; later interrupts pass through; other exceptions named by the handler are still caught.", "quantifier": "every handler type set and every sequence of interrupts", "why_tests_cant": "Unbounded interrupt histories.", "anchors": ["core/ipyflow/tracing/interrupt_tracer.py:InterruptTracer.handle_exception_handler_type"]}
{"id": "C44", "title": "Elements of literals with starred items are attributed to the right source element", "statement": "When a list/tuple literal containing at most one starred element is evaluated, element i of the value is attributed to the element expression that produced it.", "quantifier": "every literal length, star position and value length", "why_tests_cant": "Index arithmetic over all lengths.", "anchors": ["core/ipyflow/tracing/utils.py:match_container_obj_or_namespace_with_literal_nodes"]}
{"id": "C45", "title": "Transitive dependencies and transitive users are dual", "statement": "For any two values, b is among rdeps(a) iff a is among rusers(b) (ignoring anonymous symbols), rdeps excludes the value itself, and the traversal terminates on cyclic graphs.", "quantifier": "every symbol graph", "why_tests_cant": "All graphs.", "anchors": ["core/ipyflow/api/lift.py:rdeps", "core/ipyflow/api/lift.py:rusers", "core/ipyflow/api/lift.py:_traverse"]}
{"id": "C46", "title": "Exported DAG metadata is consistent", "statement": "In exported DAG metadata, cell p is a parent of c iff c is a child of p, and no cell is its own parent.", "quantifier": "every record of symbol uses", "why_tests_cant": "All records.", "anchors": ["core/ipyflow/experimental/dag.py:create_dag_metadata"]}
{"id": "C47", "title": "Scoped overrides are undone", "statement": "Timestamp offsets, slicing contexts and position overrides are restored to their previous value when their scope ends, normally or by exception, for any nesting.", "quantifier": "every nesting of scopes and every point of failure", "why_tests_cant": "Unbounded nesting and failure points.", "anchors": ["core/ipyflow/data_model/timestamp.py:Timestamp.offset", "core/ipyflow/slicing/context.py", "core/ipyflow/data_model/cell.py:Cell._override_position_index_for_current_flow_semantics"]}
{"id": "C48", "title": "Timestamps order executions lexicographically", "statement": "Comparing timestamps is a strict total order in which every statement of an earlier cell execution precedes every statement of a later one, and the cell's own timestamp precedes all its statements.", "quantifier": "all timestamps", "why_tests_cant": "Order laws over all integers.", "anchors": ["core/ipyflow/data_model/timestamp.py:Timestamp", "core/ipyflow/data_model/cell.py:Cell.timestamp"]}
{"id": "C49", "title": "Client-side closures are exact reachability", "statement": "The set of cells the client schedules after a change (push mode) is exactly the set reachable from the start cells along child edges, and the computation terminates on cyclic graphs.", "quantifier": "every reported graph and start set", "why_tests_cant": "All graphs.", "anchors": ["frontend/labextension/src/store.ts:IpyflowSessionState.computeRawTransitiveClosure"]}
{"id": "C50", "title": "Client-side any-order execution respects dependencies", "statement": "With any-order semantics and an acyclic reported graph, cells are executed so that every cell comes after all of its parents that are also executed.", "quantifier": "every acyclic graph and every subset of cells", "why_tests_cant": "All graphs.", "anchors": ["frontend/labextension/src/store.ts:IpyflowSessionState.#computeTopoOrderIdx", "frontend/labextension/src/store.ts:IpyflowSessionState.cellIdsToCells"]}
{"id": "C51", "title": "Captured output equals displayed output", "statement": "While a cell's output is being captured, everything written to the stream is both recorded and forwarded in order, and on exit the original streams are back in place.", "quantifier": "every sequence of writes and every nesting of captures", "why_tests_cant": "Unbounded write sequences and nestings.", "anchors": ["core/ipyflow/tracing/output_recorder.py:Tee", "core/ipyflow/tracing/output_recorder.py:CaptureOutputTee"]}
{"id": "C52", "title": "Name lookup follows lexical scoping", "statement": "Looking up a name yields the binding in the innermost enclosing non-class scope that has one.", "quantifier": "every scope chain and name", "why_tests_cant": "Unbounded nesting depth.", "anchors": ["core/ipyflow/data_model/scope.py:Scope.lookup_symbol_by_name", "core/ipyflow/data_model/scope.py:Scope.non_namespace_parent_scope"]}
{"id": "C53", "title": "Attribute and subscript chains resolve step by step", "statement": "Resolving a chain such as a.b[0].c yields, for each prefix, the symbol stored for that prefix in the namespace of the object of the previous prefix, stopping at the first missing one; the fully resolved symbol is reported only if no link is missing.", "quantifier": "every chain and namespace table", "why_tests_cant": "Chains of any length.", "anchors": ["core/ipyflow/data_model/scope.py:Scope.gen_symbols_for_attrsub_chain", "core/ipyflow/data_model/scope.py:Scope.try_fully_resolve_attrsub_chain"]}
{"id": "C54", "title": "Unsafe-order warnings are exact", "statement": "With in-order semantics a cell is flagged for out-of-order use iff it has a fully resolved live symbol last updated by a cell positioned below it.", "quantifier": "every notebook and every set of live symbols", "why_tests_cant": "All notebooks.", "anchors": ["core/ipyflow/frontend.py:FrontendCheckerResult._check_one_cell"]}
{"id": "C55", "title": "Slicing always terminates and raises only for a missing cell", "statement": "Computing a backward slice returns for every dependency graph, cyclic or not; it raises exactly when a requested seed does not exist or a reached recorded parent has no version visible at the time its reader ran.", "quantifier": "every version history, every dependency table (cyclic included), every seed list", "why_tests_cant": "Cyclic graphs of every size; a test only shows termination on the graphs it tries.", "anchors": ["core/ipyflow/slicing/mixin.py:SliceableMixin.make_slice", "core/ipyflow/slicing/mixin.py:SliceableMixin._make_slice_helper"]}
{"id": "C56", "title": "The parents reported as stale are exact", "statement": "Under in-order DAG-based scheduling, the stale parents reported for a cell are exactly the recorded parents above it from which it takes a symbol such that the symbol, or an object enclosing it, was written after that parent last ran.", "quantifier": "every notebook, edge table and object nesting", "why_tests_cant": "Unbounded nesting and notebooks.", "anchors": ["core/ipyflow/frontend.py:FrontendCheckerResult._compute_stale_parents"]}
{"id": "C57", "title": "A cell is listed as a child only by its recorded parents once its run is over", "statement": "After any sequence of edge operations and re-runs, when the latest run of a cell has finished its clean-up, every cell that lists it as a child with symbol s is one of its parents with symbol s: dependencies of an earlier run leave no trace in the dependents of other cells.", "quantifier": "every history of edge additions, removals, runs with and without dataflow, and clean-ups", "why_tests_cant": "Unbounded histories with interleaved re-runs of many cells.", "anchors": ["core/ipyflow/flow.py:NotebookFlow._remove_dangling_parent_edges", "core/ipyflow/data_model/cell.py:Cell.create_and_track", "core/ipyflow/slicing/mixin.py:SliceableMixin.add_parent_edges"]}
{"id": "C58", "title": "Overriding a statement keeps the statement graph", "statement": "When a statement is re-created in place of an earlier one with the same timestamp, the operation does not raise and the dependency graph afterwards is the earlier graph with the new statement in place of the old one, parent and child tables agreeing.", "quantifier": "every statement graph with agreeing tables", "why_tests_cant": "All graphs; loops of dependent replacements.", "anchors": ["core/ipyflow/data_model/statement.py:Statement.create_and_track", "core/ipyflow/slicing/mixin.py:SliceableMixin.replace_parent_edges", "core/ipyflow/slicing/mixin.py:SliceableMixin.replace_child_edges"]}
{"id": "C59", "title": "Negative subscripts refer to the same element", "statement": "For a tracked list, looking up the symbol of lst[i] for any valid index i, negative ones included, gives the symbol of the element that index denotes.", "quantifier": "every list length, valid index and set of tracked element symbols", "why_tests_cant": "All lengths and indices, and every order of assignments, insertions and deletions before.", "anchors": ["core/ipyflow/data_model/namespace.py:Namespace._lookup_subscript", "core/ipyflow/data_model/scope.py:Scope._upsert_symbol_for_name_inner"]}
{"id": "C60", "title": "Garbage collection keeps every live symbol reachable by its name", "statement": "If before a garbage collection looking up a name yields a symbol that is not garbage, the same lookup yields the same symbol after it.", "quantifier": "every history of definitions, deletions, renamings and collections", "why_tests_cant": "The failing histories reuse a deleted name before the next collection.", "anchors": ["core/ipyflow/data_model/symbol.py:Symbol.collect_self_garbage", "core/ipyflow/flow.py:NotebookFlow.gc", "core/ipyflow/data_model/scope.py:Scope.delete_symbol_for_name"]}
{"id": "C61", "title": "Which symbols become stale does not depend on registration order", "statement": "Two notebooks with the same symbols, containers and dependency edges, which differ only in the order in which the edges came about, have the same symbols stale after the same update.", "quantifier": "every dependency graph, every order of the users of each symbol, every update", "why_tests_cant": "Orders of registration depend on the whole history of the session; a test fixes one.", "anchors": ["core/ipyflow/data_model/utils/update_protocol.py:UpdateProtocol._propagate_waiting_to_deps", "core/ipyflow/data_model/utils/update_protocol.py:UpdateProtocol._propagate_waiting_to_namespace_parents"]}
{"id": "C62", "title": "Calling a function that the cell defines counts as reading what the function reads", "statement": "If a cell calls a function that it defines itself, every variable that some path through the body of the function reads before writing it, other than the parameters, is reported live for the cell.", "quantifier": "every function body of the supported statement forms, every path through it, every call", "why_tests_cant": "Bodies and paths are unbounded.", "anchors": ["core/ipyflow/analysis/live_refs.py:ComputeLiveSymbolRefs.visit_Call"]}
{"id": "C63", "title": "Calls into functions of other cells are followed completely", "statement": "The live symbols of a cell include those of exactly the functions that it calls directly or indirectly, each of which is looked at once, even if functions call each other in cycles.", "quantifier": "every finite call graph, cyclic or not, every set of calls in the cell", "why_tests_cant": "Call graphs are unbounded and may be cyclic; a test fixes one.", "anchors": ["core/ipyflow/analysis/live_refs.py:_compute_call_chain_live_symbols_and_cells"]}
{"id": "C64", "title": "Client requests are held back exactly while a delayed recomputation is outstanding", "statement": "While, and only while, a delayed recomputation of the schedule is waiting or running, schedule requests of the client are ignored; in particular they are not ignored for good.", "quantifier": "every interleaving of updates, timer firings, ends of runs and progress of the main thread", "why_tests_cant": "Depends on the interleaving of two threads over unbounded time.", "anchors": ["core/ipyflow/data_model/symbol.py:_debounced_exec_schedule", "core/ipyflow/data_model/symbol.py:Symbol.debounced_exec_schedule", "core/ipyflow/comm_manager.py:CommManager._comm_target"]}
{"id": "C65", "title": "A delayed recomputation leaves the scheduling setting as the user chose it", "statement": "Whenever no delayed recomputation is running, the execution schedule setting is the one the user chose last, also after failed runs.", "quantifier": "every interleaving of updates, timer firings, ends of runs and changes of the setting", "why_tests_cant": "Depends on the interleaving of two threads over unbounded time.", "anchors": ["core/ipyflow/data_model/symbol.py:_debounced_exec_schedule"]}
{"id": "C66", "title": "Incremental reactivity is never combined with a plain DAG schedule", "statement": "Incremental reactivity works only with a schedule that looks at live references; after any sequence of commands, if the reactivity setting is incremental then the schedule is the liveness or the hybrid one.", "quantifier": "for all sequences of settings commands", "why_tests_cant": "Tests set one value at a time; the claim is about every order in which the commands may be given.", "anchors": ["core/ipyflow/line_magics.py:set_reactivity", "core/ipyflow/line_magics.py:set_exec_schedule"]}
{"id": "C67", "title": "Targets of an unpacking assignment depend on exactly what they receive", "statement": "After an unpacking assignment whose value is a tracked container (possibly nested targets, possibly one starred target), each plain target depends on exactly the element it receives and on everything the assigned expression called, and the starred target's new list depends on exactly the elements it receives.", "quantifier": "every target pattern, every value and every number of elements taken by a starred target", "why_tests_cant": "All patterns and lengths; the bookkeeping is by index and off-by-one errors show only for particular positions of the star.", "anchors": ["core/ipyflow/data_model/statement.py:Statement._handle_store_target_tuple_unpack_from_namespace", "core/ipyflow/data_model/statement.py:Statement._handle_starred_store_target"]}
{"id": "C68", "title": "Items of dictionary displays are attributed to the entry that gave their value", "statement": "When a dictionary display is evaluated, the item stored under each key of the result is attributed to the entry of the display whose value it is.", "quantifier": "every dictionary display, including repeated keys and ** entries", "why_tests_cant": "All displays and key collisions.", "anchors": ["core/ipyflow/tracing/utils.py:match_container_obj_or_namespace_with_literal_nodes", "core/ipyflow/tracing/ipyflow_tracer.py:after_literal"]}
{"id": "C69", "title": "The exported dependency graph shows exactly the reads that happened", "statement": "In the exported cell dependency graph there is an edge from cell A to cell B exactly if the current run of B read a value written by A; hence the graph has no cycles and every parent ran before its child.", "quantifier": "every history of cell executions and content checks", "why_tests_cant": "All histories; a cycle needs an unlucky order of edits and checks.", "anchors": ["core/ipyflow/experimental/dag.py:create_dag_metadata", "core/ipyflow/data_model/symbol.py:Symbol.update_usage_info", "core/ipyflow/comm_manager.py:CommManager.handle_notify_content_changed"]}
{"id": "C70", "title": "The exported dependency graph mentions only executed cells", "statement": "Every cell that occurs in the exported dependency graph, as an entry, parent or child, is a cell that has been executed.", "quantifier": "every history of cell executions", "why_tests_cant": "Symbols may be created before they are given a time; which cells show up depends on the order.", "anchors": ["core/ipyflow/experimental/dag.py:create_dag_metadata"]}
{"id": "C71", "title": "Exported import statements recreate the binding", "statement": "The import statement reported for an imported name, executed in an empty namespace, binds that name to the same object as the import the user wrote.", "quantifier": "every import statement, with any number of clauses, dotted names and aliases", "why_tests_cant": "All import statements; clauses may bind the same name twice.", "anchors": ["core/ipyflow/data_model/symbol.py:Symbol.get_import_string"]}
{"id": "C72", "title": "Scopes of different threads do not leave settings behind", "statement": "When all scopes that changed the timestamp offset or the cell that dependencies are credited to have ended, in whatever order threads entered and left them, the settings are as before.", "quantifier": "every interleaving of entering and leaving scopes by any number of threads", "why_tests_cant": "Depends on the interleaving of threads.", "anchors": ["core/ipyflow/data_model/timestamp.py:Timestamp.offset", "core/ipyflow/flow.py:NotebookFlow.override_child_cell", "core/ipyflow/data_model/symbol.py:_debounced_exec_schedule"]}
{"id": "C73", "title": "The clock never goes back", "statement": "A timestamp taken later is never smaller than one taken earlier, whatever cells are run, however many statements they finish before failing.", "quantifier": "every sequence of runs, statements, resets of the tracer and timestamps taken", "why_tests_cant": "All sequences.", "anchors": ["core/ipyflow/data_model/timestamp.py:Timestamp.current", "core/ipyflow/tracing/ipyflow_tracer.py:DataflowTracer.after_module_stmt", "core/ipyflow/shell/interactiveshell.py:_tracing_context"]}
{"id": "C74", "title": "What a reactive batch executes", "statement": "With pulling of updates and updates of cousins switched on (the defaults in JupyterLab), the cells the client executes for given start cells are the least set that contains the start cells, every cell that depends on a member, every ancestor of a member that is stale, and every parent whose value was overwritten or is overwritten by a member; cells outside this set are not executed.", "quantifier": "every pair of parent and child tables, every status of the cells, every list of start cells", "why_tests_cant": "The set is a fixed point reached over several rounds that grow while they are iterated; tests can only fix a few graphs.", "anchors": ["frontend/labextension/src/store.ts:IpyflowSessionState.computeRawTransitiveClosure", "frontend/labextension/src/store.ts:IpyflowSessionState.computeRawTransitiveClosureHelper"]}
{"id": "C75", "title": "No gaps in a reactive batch", "statement": "If a cell and one of its descendants are both executed in a batch with pulling, then every cell between them is executed too, so that the descendant does not see a mixture of old and new values.", "quantifier": "every graph and every choice of start cells", "why_tests_cant": "A gap needs a particular shape of graph and a particular order of parents.", "anchors": ["frontend/labextension/src/store.ts:IpyflowSessionState.computeRawTransitiveClosureHelper"]}
{"id": "C76", "title": "Closures are computed on any graph", "statement": "Computing the closure of given start cells ends, whatever tables the kernel reports.", "quantifier": "every pair of tables and start cells", "why_tests_cant": "Divergence shows only on graphs with a shape that tests do not contain.", "anchors": ["frontend/labextension/src/store.ts:IpyflowSessionState.computeRawTransitiveClosureHelper", "frontend/labextension/src/store.ts:IpyflowSessionState.computeRawTransitiveClosure"]}
{"id": "C77", "title": "In-order execution follows the notebook", "statement": "With in-order semantics, the requested cells that are in the notebook are executed, each as often as requested, in the order of the notebook.", "quantifier": "every notebook and every list of requested cells", "why_tests_cant": "All orders and subsets.", "anchors": ["frontend/labextension/src/store.ts:IpyflowSessionState.cellIdsToCells"]}
{"id": "C78", "title": "At most once per reactive run", "statement": "From the first schedule after a user's execution until the client goes idle, the client executes no cell twice and does not execute again the cell whose execution the first schedule reports.", "quantifier": "every sequence of schedules the kernel may send, every notebook", "why_tests_cant": "The sequence of schedules is not under the control of the client and arbitrarily long.", "anchors": ["frontend/labextension/src/index.ts:connectToComm"]}
{"id": "C79", "title": "Reactive runs end", "statement": "A reactive run ends after at most as many rounds as the notebook has cells, whatever the kernel reports.", "quantifier": "every sequence of schedules", "why_tests_cant": "Non-termination cannot be observed by a test.", "anchors": ["frontend/labextension/src/index.ts:connectToComm"]}
{"id": "C80", "title": "Reactive runs are complete", "statement": "When a reactive run ends without an error, every code cell that the kernel reported as newly ready during the run has been executed in it.", "quantifier": "every sequence of schedules and every notebook", "why_tests_cant": "All sequences of reports.", "anchors": ["frontend/labextension/src/index.ts:connectToComm"]}
{"id": "C81", "title": "Dotted names resolve through attributes only", "statement": "Looking up a dotted name such as a.b.c in a scope yields a symbol exactly if a is bound in that scope itself and each further part is an attribute recorded for the object before it or for its class; elements stored under the same text and outer scopes never take part.", "quantifier": "every scope, dotted name and table of attributes and elements", "why_tests_cant": "Names of any length and any nesting of objects.", "anchors": ["core/ipyflow/data_model/scope.py:Scope.lookup_symbol_by_qualified_name", "core/ipyflow/data_model/namespace.py:Namespace.lookup_symbol_by_name_this_indentation"]}
{"id": "C82", "title": "A cell is given its own output", "statement": "The output reported for an execution of a cell (stdout(n), stderr(n), reproduced cells, memoised results) is what that execution wrote and displayed, never that of another execution, and stays so when further cells run.", "quantifier": "every sequence of runs of cells and every output they produce", "why_tests_cant": "Recording state is shared by all runs; sequences of runs are unbounded.", "anchors": ["core/ipyflow/shell/interactiveshell.py:IPyflowInteractiveShell._handle_output", "core/ipyflow/tracing/output_recorder.py:OutputRecorder", "core/ipyflow/api/cells.py:stdout"]}
{"id": "C83", "title": "References name what the code reaches", "statement": "The reference made for an access such as a.f(..)['k'][i].b names the variable it starts with followed by the attributes and keys written, in order and without gaps, up to the first one not known before execution; an access that does not start with a variable names nothing. Two accesses that reach different objects are never taken for the same.", "quantifier": "every nesting of attributes, subscripts and calls, and every value of the variables used as subscripts", "why_tests_cant": "Expressions nest without bound.", "anchors": ["core/ipyflow/analysis/symbol_ref.py:SymbolRefVisitor", "core/ipyflow/analysis/symbol_ref.py:resolve_slice_to_constant"]}
{"id": "C84", "title": "Reactivity marks cover what is reached through the marked object", "statement": "In a.$b.c the mark on b makes the reads of b and of everything reached through it reactive (likewise $$ cascading), and of nothing before it; $: makes the reads of the marked object and of everything reached through it non-reactive, whatever other marks there are.", "quantifier": "every chain of links and every placement of marks", "why_tests_cant": "Chains of any length.", "anchors": ["core/ipyflow/analysis/symbol_ref.py:SymbolRef.gen_resolved_symbols", "core/ipyflow/analysis/symbol_ref.py:LiveSymbolRef.gen_resolved_symbols", "core/ipyflow/analysis/resolved_symbols.py:ResolvedSymbol.is_reactive"]}
{"id": "C85", "title": "Assigning to a member does not assign the container", "statement": "A target such as a.b['k'] counts as an assignment of exactly the symbol of a.b['k'], if that is known, and of no object on the way to it.", "quantifier": "every chain of links and every placement of marks", "why_tests_cant": "Chains of any length.", "anchors": ["core/ipyflow/analysis/symbol_ref.py:SymbolRef.gen_resolved_symbols", "core/ipyflow/analysis/live_refs.py:get_symbols_for_references"]}
{"id": "C86", "title": "Equality of references is an equivalence", "statement": "Equality of references is reflexive, symmetric and transitive, and equal references have the same hash, so that sets and tables of references do not depend on the order of insertion.", "quantifier": "every triple of references", "why_tests_cant": "All triples.", "anchors": ["core/ipyflow/analysis/symbol_ref.py:SymbolRef.__eq__", "core/ipyflow/analysis/symbol_ref.py:SymbolRef.__hash__"]}
{"id": "C87", "title": "Waiting is judged exactly", "statement": "Under in-order semantics a variable is reported as waiting at a cell exactly if it is stale and an input it received from a cell above has been updated from above since, or waits itself, or a part of it waits; under any-order semantics exactly if it or a part of it is stale. The answer depends neither on the order in which variables are examined nor on earlier answers.", "quantifier": "every dependency graph of variables, every notebook order and every sequence of questions", "why_tests_cant": "Graphs, histories and sequences of questions are unbounded; answers are kept between questions.", "anchors": ["core/ipyflow/data_model/symbol.py:Symbol.is_waiting_at_position", "core/ipyflow/data_model/symbol.py:Symbol._is_ready_or_waiting_at_position_impl", "core/ipyflow/data_model/symbol.py:Symbol.is_waiting"]}
{"id": "C88", "title": "Staleness can always be decided", "statement": "Asking whether a variable is waiting returns an answer, and the right one, whatever objects contain each other and whether or not the user cleared the marks with %flow clear.", "quantifier": "every graph of objects, cyclic ones included", "why_tests_cant": "Non-termination cannot be observed by a test; cyclic graphs of any shape.", "anchors": ["core/ipyflow/data_model/symbol.py:Symbol.is_waiting", "core/ipyflow/line_magics.py:make_line_magic"]}
{"id": "C89", "title": "An object is at least as new as everything inside it", "statement": "After any sequence of assignments and mutations, the time at which a variable, attribute or element was last updated, read as a whole, is not older than that of anything it contains, at any depth, and of every name of an object alike, so that a cell which reads the object is told about every change inside it.", "quantifier": "every heap, cyclic ones included, and every sequence of updates", "why_tests_cant": "All shapes of nested and shared objects and all sequences of updates.", "anchors": ["core/ipyflow/data_model/symbol.py:Symbol.timestamp", "core/ipyflow/data_model/symbol.py:Symbol.refresh", "core/ipyflow/data_model/utils/update_protocol.py:UpdateProtocol"]}
{"id": "C90", "title": "An update makes newer exactly what it concerns", "statement": "Assigning or mutating something makes newer that thing, every other name of the object that was mutated, and everything that contains one of these, and nothing else.", "quantifier": "every heap and every update", "why_tests_cant": "All heaps; a spurious update shows as a cell that is run for no reason.", "anchors": ["core/ipyflow/data_model/symbol.py:Symbol.refresh", "core/ipyflow/data_model/utils/update_protocol.py:UpdateProtocol"]}
{"id": "C91", "title": "Updates keep the record of which names an object has right", "statement": "After any sequence of updates, the names recorded for an object are exactly the variables, attributes and elements that hold it.", "quantifier": "every heap and every sequence of updates", "why_tests_cant": "All sequences of updates.", "anchors": ["core/ipyflow/data_model/symbol.py:Symbol.update_deps", "core/ipyflow/data_model/utils/update_protocol.py:UpdateProtocol"]}
{"id": "C92", "title": "Updates come to an end", "statement": "Recording an update ends, whatever objects contain each other, and objects that contain themselves.", "quantifier": "every heap and every update", "why_tests_cant": "Non-termination cannot be observed by a test.", "anchors": ["core/ipyflow/data_model/symbol.py:Symbol.refresh", "core/ipyflow/data_model/utils/update_protocol.py:UpdateProtocol"]}
{"id": "C93", "title": "Ready means outdated", "statement": "Under the liveness based schedule, a cell is offered as ready exactly if it reads something, without a blocking mark, that was updated since the cell was run last (in-order: updated at or above the cell); newly ready exactly if it was run before and such an update is as recent as asked for.", "quantifier": "every history of updates, every set of reads, every arrangement of cells", "why_tests_cant": "All histories of updates.", "anchors": ["core/ipyflow/data_model/cell.py:Cell.get_max_used_live_symbol_cell_counter", "core/ipyflow/frontend.py:FrontendCheckerResult._compute_readiness"]}
{"id": "C94", "title": "Cells run by themselves are outdated in what is marked", "statement": "A cell is forced to run again exactly if something it reads that is marked as reactive (cascading: as cascading) was updated since it was run (in-order: at or above it); a forced cell is always one that is ready.", "quantifier": "every history of updates, every set of reads and marks, every arrangement of cells", "why_tests_cant": "All histories of updates and placements of marks.", "anchors": ["core/ipyflow/frontend.py:FrontendCheckerResult._compute_reactive_cells_for_reactive_symbols", "core/ipyflow/data_model/cell.py:Cell.get_max_used_live_symbol_cell_counter"]}
{"id": "C95", "title": "An assigned value depends on everything it was computed from", "statement": "What a variable is recorded to depend on after an assignment is exactly what evaluating the right side read: variables, attributes and elements, what the subscripts, arguments, called functions and objects of accesses read, and nothing that is only local to a comprehension.", "quantifier": "every expression, nested to any depth, and everything the tracer may have recorded", "why_tests_cant": "All shapes of expressions; a lost dependency shows only as a stale value that is not reported.", "anchors": ["core/ipyflow/tracing/symbol_resolver.py:ResolveRvalSymbols", "core/ipyflow/tracing/symbol_resolver.py:resolve_rval_symbols", "core/ipyflow/tracing/ipyflow_tracer.py:DataflowTracer.resolve_loaded_symbols"]}
{"id": "C96", "title": "Variables that are read are recorded as used", "statement": "After a statement every variable that it read (other than as the start of a recorded access) is recorded as used by it, so that slices contain the statement that defined it; and nothing is recorded that was not read.", "quantifier": "every expression and everything the tracer may have recorded", "why_tests_cant": "All shapes of expressions.", "anchors": ["core/ipyflow/tracing/symbol_resolver.py:ResolveRvalSymbols._add_to_resolved", "core/ipyflow/tracing/symbol_resolver.py:resolve_rval_symbols"]}
{"id": "C97", "title": "A call of an annotated library function updates what the annotation names", "statement": "A call of a function whose stub says Mutate[...] or UpsertSymbol[...] updates exactly the variables passed for the parameters that are named there (whether by position or by keyword, and also for methods), the receiver for self and the module for __module__; it never raises.", "quantifier": "every signature, annotation and call", "why_tests_cant": "All combinations of kinds of parameters, ways of passing arguments and named targets.", "anchors": ["core/ipyflow/annotations/compiler.py:compile_function_handler", "core/ipyflow/annotations/compiler.py:_mutate_argument", "core/ipyflow/annotations/compiler.py:_arg_position_in_signature", "core/ipyflow/annotations/compiler.py:_make_mutate_name_handler"]}
{"id": "C98", "title": "A method call gets the annotation of its class or else of the nearest base class", "statement": "The effect of a method call on an object is the one annotated for the first class in the method resolution order of the object's class that has an annotation for the method; if no class has one, none is used.", "quantifier": "every hierarchy of classes and every sequence of registered annotations", "why_tests_cant": "All hierarchies and all orders in which annotations are registered.", "anchors": ["core/ipyflow/tracing/external_calls/__init__.py:resolve_external_call", "core/ipyflow/annotations/compiler.py:compile_and_register_handlers_for_module"]}
{"id": "C99", "title": "A stub applies to the modules and functions it is given for", "statement": "The annotation in force for a method of a class of a module is the last one given for that method in the stubs for the class: those decorated with the module, and those in the module's file that are not decorated with any; a method stub is for the names its handler_for decorators list, or for its own.", "quantifier": "every set of stub files", "why_tests_cant": "All arrangements of stubs, decorators and files.", "anchors": ["core/ipyflow/annotations/compiler.py:get_modules_from_decorators", "core/ipyflow/annotations/compiler.py:get_names_for_function", "core/ipyflow/annotations/compiler.py:compile_classes", "core/ipyflow/annotations/compiler.py:register_annotations_from_source"]}
{"id": "C100", "title": "What a statement binds or deletes is recorded, and nothing else", "statement": "When a statement is done, the variables, attributes and elements recorded as updated (deleted) by it are those it bound (deleted), each as computed from the expression that its value came from.", "quantifier": "every statement and every choice of assignment expressions that were evaluated", "why_tests_cant": "All forms of statements and targets, nested to any depth.", "anchors": ["core/ipyflow/analysis/symbol_edges.py:GetSymbolEdges", "core/ipyflow/analysis/utils.py:stmt_contains_lval", "core/ipyflow/data_model/statement.py:Statement._make_lval_symbols", "core/ipyflow/data_model/statement.py:Statement.handle_dependencies"]}
{"id": "C101", "title": "What a statement reads is recorded as used, and nothing else", "statement": "When a statement is done, the variables recorded as used by it are those that it reads itself: in its values, tests, iterables, context expressions, defaults, bases, decorators and annotations, but not in the bodies of functions or in the statements that it contains.", "quantifier": "every statement", "why_tests_cant": "All forms of statements and expressions, nested to any depth.", "anchors": ["core/ipyflow/tracing/symbol_resolver.py:ResolveRvalSymbols", "core/ipyflow/data_model/statement.py:Statement.handle_dependencies", "core/ipyflow/data_model/statement.py:Statement._make_lval_symbols_old"]}
{"id": "C102", "title": "Bindings within a statement are recorded in the order in which they happen", "statement": "If an expression binds several variables, a variable is recorded as updated before those that are bound after it, so that one computed from another gets it as a parent.", "quantifier": "every expression", "why_tests_cant": "All expressions with nested and adjacent assignments.", "anchors": ["core/ipyflow/analysis/symbol_edges.py:GetSymbolEdges"]}
{"id": "C103", "title": "Every statement that runs is dealt with once, when its effects are there", "statement": "While a cell is run, the statements whose effects are recorded are those that complete (for if, for and with: whose body is entered), each once: if, for and with before the statements of their body, all others when they are done. A statement that raises before it has had its effect is not recorded.", "quantifier": "every execution of a cell, with loops, branches, exceptions and jumps nested to any depth", "why_tests_cant": "All executions.", "anchors": ["core/ipyflow/tracing/ipyflow_tracer.py:DataflowTracer.before_stmt", "core/ipyflow/tracing/ipyflow_tracer.py:DataflowTracer.after_stmt", "core/ipyflow/tracing/ipyflow_tracer.py:DataflowTracer.after_loop_iter", "core/ipyflow/data_model/statement.py:Statement.finished_execution_hook"]}
{"id": "C104", "title": "A variable bound anywhere in a cell counts as updated by it", "statement": "After a cell has been run, every variable that one of its statements has bound, in any iteration of any loop, is known and counts as updated by the cell, so that what depends on it becomes stale.", "quantifier": "every execution of a cell", "why_tests_cant": "All executions, with any number of iterations.", "anchors": ["core/ipyflow/tracing/ipyflow_tracer.py:DataflowTracer._handle_skipped_sub_statements", "core/ipyflow/tracing/ipyflow_tracer.py:DataflowTracer.after_module_stmt", "core/ipyflow/analysis/live_refs.py:ComputeLiveSymbolRefs.generic_visit_branch_or_loop"]}
{"id": "C105", "title": "What happens is attributed to the function call in which it happens", "statement": "Whenever effects of a statement are recorded, they are recorded for the call of the function that is executing it, however calls, returns, exceptions and code of libraries follow each other and whether or not tracing was suspended in between; and when a statement of a traced function begins or ends, tracing is on.", "quantifier": "every sequence of calls, returns, exceptions, statements and suspensions", "why_tests_cant": "All call sequences of any depth.", "anchors": ["core/ipyflow/tracing/ipyflow_tracer.py:DataflowTracer._try_reenable_tracing", "core/ipyflow/tracing/ipyflow_tracer.py:DataflowTracer._call_stack_length_for_reenabling_tracing", "core/ipyflow/tracing/ipyflow_tracer.py:DataflowTracer._handle_call_transition", "core/ipyflow/tracing/ipyflow_tracer.py:DataflowTracer._handle_return_transition"]}
{"id": "C106", "title": "The result of a call depends on what the function returned", "statement": "What is computed from a call of a function of the notebook is recorded to depend on everything that the executed return statement read, every time the function is called.", "quantifier": "every sequence of calls", "why_tests_cant": "All call sequences.", "anchors": ["core/ipyflow/tracing/ipyflow_tracer.py:DataflowTracer.handle_call", "core/ipyflow/tracing/ipyflow_tracer.py:DataflowTracer._handle_return_transition"]}
{"id": "C107", "title": "Inside a called function a parameter depends on exactly what was passed for it", "statement": "When a function or method of the notebook is called, each parameter is recorded as the object it received and as depending on exactly the variables mentioned in the argument expression (or default) its value came from: positional, keyword, starred, default, keyword-only and positional-only parameters and the receiver of a method alike.", "quantifier": "every signature, call and environment", "why_tests_cant": "The rules for matching arguments allow unboundedly many shapes of signatures and calls.", "anchors": ["core/ipyflow/data_model/symbol.py:Symbol._match_call_args_with_definition_args", "core/ipyflow/data_model/symbol.py:Symbol.create_symbols_for_call_args"]}
{"id": "C108", "title": "Inside a function the name of a parameter stands for the parameter", "statement": "While a function of the notebook runs, a use of the name of a parameter is taken as a use of the parameter and never of a variable of the same name outside, and names that are not parameters keep their meaning.", "quantifier": "every signature, call and surrounding variables", "why_tests_cant": "All signatures and all surroundings.", "anchors": ["core/ipyflow/data_model/symbol.py:Symbol.create_symbols_for_call_args", "core/ipyflow/data_model/symbol.py:Symbol.get_definition_args", "core/ipyflow/data_model/statement.py:Statement.get_post_call_scope"]}
{"id": "C109", "title": "The writes of a cell are what it stored", "statement": "After a cell has run, its static and dynamic writes together contain every variable, attribute and element that was stored by it, and nothing that was not stored; none is listed as both, and what was stored dynamically once in the cell is never listed as static.", "quantifier": "every sequence of stores and statement ends in a cell", "why_tests_cant": "All sequences of stores with all nestings of values.", "anchors": ["core/ipyflow/data_model/scope.py:Scope.upsert_symbol_for_name", "core/ipyflow/data_model/cell.py:Cell.static_writes"]}
{"id": "C110", "title": "A binding or deletion made in a function is recorded for the variable it concerns", "statement": "However functions and classes are nested and whatever they declare global or nonlocal, an assignment to a name is recorded for exactly the variable that Python assigns, a deletion for exactly the one that Python deletes, and a use of the name is taken as one of the variable that Python reads.", "quantifier": "every nesting of functions and classes, all declarations, and every sequence of assignments and deletions", "why_tests_cant": "All nestings and all sequences.", "anchors": ["core/ipyflow/tracing/ipyflow_tracer.py:DataflowTracer._resolve_store_data_for_simple_target", "core/ipyflow/tracing/ipyflow_tracer.py:DataflowTracer.resolve_del_data_for_target", "core/ipyflow/data_model/scope.py:Scope.lookup_symbol_by_name"]}
{"id": "C111", "title": "The type declared for a variable is one that its value has", "statement": "The type that is declared for a variable when a cell is type checked is a type of the variable's value, whatever the nesting of lists, sets, tuples, dictionaries and objects; it mentions no alternative that no element calls for; and it does not depend on the order of the elements.", "quantifier": "every value", "why_tests_cant": "Values nest without bound.", "anchors": ["core/ipyflow/data_model/utils/annotation_utils.py:get_type_annotation", "core/ipyflow/data_model/utils/annotation_utils.py:make_annotation_string", "core/ipyflow/data_model/cell.py:Cell._build_typecheck_slice"]}
{"id": "C112", "title": "After a cell has run its variables are known with their values", "statement": "When a cell has run, including code that was not observed, every global variable updated by it is known with the object it now has, and is listed among the names of that object and of no other; what is known about an element of a list stands for the element at that position, and is not given up while the element is there; and this bookkeeping never fails.", "quantifier": "every state of the notebook and every change made without being observed", "why_tests_cant": "All states and all interleavings.", "anchors": ["core/ipyflow/data_model/symbol.py:Symbol.resync_if_necessary", "core/ipyflow/shell/interactiveshell.py:IPyflowInteractiveShell.after_run_cell", "core/ipyflow/flow.py:NotebookFlow._resync_symbols"]}
{"id": "C113", "title": "A new object for a variable leaves what is known about the old one to its other names", "statement": "When a variable is assigned another object, the parts (attributes, elements) recorded for the new object are parts it has, each with the value it has there; parts recorded for the old object that the new one lacks stay recorded; nothing changes for other objects and variables; and if the old object still has another name, everything recorded about its parts stays recorded for that name, so that what depends on `b[0]` goes on depending on `b[0]` after `a = list(a)`. The assignment itself is always recorded.", "quantifier": "for all variables, objects, recorded parts, aliases, and all outcomes of looking up parts in the new object", "why_tests_cant": "tests reassign variables whose object has no second name and whose new object is a literal, so that the old parts are never carried over", "anchors": ["core/ipyflow/data_model/symbol.py:710-758", "core/ipyflow/data_model/namespace.py:391-423", "core/ipyflow/flow.py:650-672"]}
{"id": "C114", "title": "What calls of library code change is recorded", "statement": "A call of a method that changes a list, dictionary or set is recorded as a change of that object, whatever the method returns and however the method is reached; a call of a library function that changes its first argument is recorded as a change of that argument; calls of methods that change nothing are not recorded. A method of another library object counts as changing the object exactly if it returns None or the object. A change is recorded only for names of the object, of the function's module, and for variables in arguments, and the object depends afterwards on the variables in the arguments.", "quantifier": "for all objects, names, methods, arguments and returned values", "why_tests_cant": "tests call a few methods such as append and update on variables; they do not cover what methods return, functions of modules applied to containers, or methods kept in variables", "anchors": ["core/ipyflow/tracing/external_calls/__init__.py:24-101", "core/ipyflow/tracing/external_calls/base_handlers.py:170-346", "core/ipyflow/annotations/builtins.pyi:1-47"]}
{"id": "C115", "title": "Parts of objects that are read are recorded as what they are", "statement": "When an expression such as x.a[i].b is evaluated, every attribute and element that is read on the way is recorded under the object it belongs to, as the object that was read; the part that is the value of the expression is among those the expression is said to have read, and nothing else than what occurs in it is; other parts and variables stand for the same objects as before. The target of an assignment or deletion is the part of the object Python evaluates the target to.", "quantifier": "every expression of attributes, elements (with nested indices) and method calls, to any depth; all objects, values and states of the recorded parts", "why_tests_cant": "All shapes of expressions and of objects; that x.a[y.b] makes x.a be recorded as y, that a failed x.a is recorded when y.b is evaluated next, or that x[1:3] + z does not depend on x, shows only in later wrong or missing staleness.", "anchors": ["core/ipyflow/tracing/ipyflow_tracer.py:DataflowTracer.attrsub_tracer", "core/ipyflow/tracing/ipyflow_tracer.py:DataflowTracer.after_complex_symbol", "core/ipyflow/tracing/ipyflow_tracer.py:DataflowTracer._clear_info_and_maybe_lookup_or_create_complex_symbol", "core/ipyflow/data_model/namespace.py:Namespace.lookup_symbol_by_name_this_indentation"]}
{"id": "C116", "title": "Assigning to a part of an object records that part, as what it now is", "statement": "After an assignment to attributes and elements of objects (several targets, unpacking and augmented assignment included), each target is recorded under the object it belongs to as the object that is now there; if everything recorded about parts was so before, it is so afterwards, and nothing else that is recorded changes. The part depends on everything its value was computed from, and with `=` on nothing else. Whatever is assigned, later assignments are dealt with as well.", "quantifier": "every object, part, value, number of targets, nesting of recorded objects, and state of the tables", "why_tests_cant": "Where a store is recorded depends on which other objects happen to hold the same value: `x['a']['n'] = 0` goes wrong only if x itself has a 0. Tests assign to one part at a time, with values that occur nowhere else.", "anchors": ["core/ipyflow/tracing/ipyflow_tracer.py:DataflowTracer.resolve_store_data_for_target", "core/ipyflow/data_model/namespace.py:Namespace.get_earliest_ancestor_containing", "core/ipyflow/data_model/scope.py:Scope._upsert_symbol_for_name_inner", "core/ipyflow/data_model/symbol.py:Symbol.update_obj_ref"]}
{"id": "C117", "title": "Objects that nothing names any more are let go of, and nothing else is forgotten", "statement": "When the names of an object are deleted or given other objects and the garbage of the tracker has been collected (as happens after every cell), the tracker no longer holds a reference to any object that the notebook can no longer reach through variables and recorded parts, so that its memory can be released; and for every object that is still reachable the tracker still knows every variable and every part that was assigned to it. Marking garbage ends however deeply objects are nested.", "quantifier": "for all sequences of assignments of variables and parts, deletions, uses of parts of objects and collections, for all shapes of objects, shared and nested", "why_tests_cant": "What is marked depends on the order in which names of shared and nested objects disappear; tests look at one or two objects and never at what the tracker still holds.", "anchors": ["core/ipyflow/data_model/symbol.py:670-698", "core/ipyflow/data_model/symbol.py:710-759", "core/ipyflow/data_model/namespace.py:158-176", "core/ipyflow/data_model/namespace.py:313-328", "core/ipyflow/data_model/scope.py:442-449", "core/ipyflow/flow.py:630-648"]}
{"id": "C118", "title": "The marks $, $$ and $: decide which cells are run again", "statement": "An assignment whose target has $ before one of its parts has every cell that reads this part, or what it is a part of, or a part of it, run again, and no other cell that does not ask for it; a cell that reads a chain with $ before one of its parts is run again when this part, or what it is a part of, or a part of it, is assigned to; $: before a part of what is read makes the cell deaf to changes of this part, and $: in the target of an assignment has no cell run again; and a $$ goes on from cell to cell: all that depends on what was assigned to, through any number of cells without marks, is run again.", "quantifier": "for all histories of cells with any assignments to variables and parts of any depth with any marks, and all readers with any marks, whenever they last ran", "why_tests_cant": "The combinations of marks on targets and reads at different depths, of several assignments in a cell and of earlier cells are unbounded; tests try single marks one or two levels deep and never $: and $ together, two assignments in one cell, or $$ before a part.", "anchors": ["core/ipyflow/data_model/statement.py:305-340", "core/ipyflow/data_model/symbol.py:374-404", "core/ipyflow/data_model/symbol.py:1084-1110", "core/ipyflow/analysis/resolved_symbols.py:58-127", "core/ipyflow/analysis/symbol_ref.py:428-540", "core/ipyflow/frontend.py:198-226", "core/ipyflow/comm_manager.py:361-366"]}
{"id": "C119", "title": "Each library call is recorded with its own arguments and result", "statement": "When a statement calls library code, what ipyflow records about the call (what it changes, what its result depends on) is based on the arguments that this very call was given and on what this very call returned, however calls are nested, repeated or interrupted by exceptions; every library call that is carried out is recorded, once, in the order in which the calls were made, and a call that failed is not recorded as if it had been carried out. A loop over zip(...) or enumerate(...) is taken to iterate over the arguments of that call.", "quantifier": "for all nestings of calls in expressions, all sequences of statements with try/except, all results and exceptions, and all moments at which tracing is turned off and on again", "why_tests_cant": "the tracer matches arguments and results to calls through a stack, a list and one flag that are shared by all calls of a frame; the number of nestings and of ways to leave them is unbounded, and tests only use calls that return and are not called back", "anchors": ["core/ipyflow/tracing/ipyflow_tracer.py:1105-1113", "core/ipyflow/tracing/ipyflow_tracer.py:1115-1170", "core/ipyflow/tracing/ipyflow_tracer.py:1196-1281", "core/ipyflow/tracing/ipyflow_tracer.py:1470-1499", "core/ipyflow/tracing/ipyflow_tracer.py:299-302", "core/ipyflow/tracing/ipyflow_tracer.py:1653-1663", "core/ipyflow/data_model/statement.py:700-703"]}
{"id": "C120", "title": "Only reads that would fail are left out when readiness is decided", "statement": "An access such as x.data['k'][1] counts as a read of every object on the way to its result, so that a cell with this access is ready when one of them is assigned anew after the cell was run; an object counts as read unless the access would fail at it because it does not have the attribute, key or index asked for. With in-order semantics failing reads count, too, for cells at or above the current one, and for cells which are, with all that they depend on, below it. Method calls count as reads unless the method is known to change the object and cells are run automatically or the read is marked.", "quantifier": "every access, every state of the objects and symbols, every set of positions", "why_tests_cant": "The decision compares an abstracted chain with the objects of the moment; examples cannot cover all shapes of objects and accesses, and the wrong answers are silent: a stale cell is just not marked.", "anchors": ["core/ipyflow/analysis/resolved_symbols.py:ResolvedSymbol.is_unsafe", "core/ipyflow/analysis/resolved_symbols.py:ResolvedSymbol.is_deep", "core/ipyflow/analysis/resolved_symbols.py:ResolvedSymbol.is_mutating", "core/ipyflow/analysis/live_refs.py:get_live_symbols_and_cells_for_references", "core/ipyflow/data_model/scope.py:Scope.gen_symbols_for_attrsub_chain"]}
{"id": "C121", "title": "After the user's runs, a new schedule is asked for", "statement": "When everything the user has started in the notebook has come to its end, the client has asked the kernel for a schedule since the last of it, so that the highlights and what is ready are those of now.", "quantifier": "all sequences of events of a session: runs, runs in alternate mode, slices, their ends in any order, schedules, changes of mode and of reactivity, the connection before or after", "why_tests_cant": "A counter of runs under way decides whether the client asks; whether it can be wrong is a question about all interleavings of starts and ends over a whole session in a browser.", "anchors": ["frontend/labextension/src/index.ts:260-325", "frontend/labextension/src/store.ts:74-113"]}
{"id": "C122", "title": "Alternate mode is for one run", "statement": "With ctrl+shift+enter a cell is run as if the other execution mode were in force; runs before and after, and the mode of the kernel, remain in the mode that the user has chosen; the commands for slices run the slice.", "quantifier": "all sequences of events of a session, in batch and in incremental reactivity and in both modes", "why_tests_cant": "The mode of the kernel is switched there and back by two counters that change with messages of the kernel; tests exercise neither the client nor sequences of commands.", "anchors": ["frontend/labextension/src/index.ts:77-179", "frontend/labextension/src/index.ts:981-1001", "frontend/labextension/src/store.ts:124-150", "core/ipyflow/flow.py:530-537", "README.md"]}
{"id": "C123", "title": "A cell is run by the kernel of its own notebook", "statement": "When the user runs a cell with the run command, it is run by the kernel of the notebook it belongs to: at once, or, if the connection to ipyflow is not there yet, when it is; whichever notebooks are open, whatever their kernels, and whether or not the extension is loaded.", "quantifier": "all sequences of events over any number of notebooks: opening, kernels becoming ready, connecting, loading and unloading the extension, changing and shutting down kernels, schedules, runs", "why_tests_cant": "The client wraps the run commands of JupyterLab for all notebooks; which notebook's schedule comes first is a race, and no test runs the client at all.", "anchors": ["frontend/labextension/src/index.ts:35", "frontend/labextension/src/index.ts:238-303", "frontend/labextension/src/index.ts:340-402", "frontend/labextension/src/index.ts:874-882", "frontend/labextension/src/store.ts:90-122"]}
{"id": "C124", "title": "A lambda that is given to a library computes what it computes elsewhere", "statement": "A user writes `button.on_click(lambda b: f(b) + x)` or `df.apply(lambda r: g(r))`. Whenever the library calls the function it was given, the result is the one that a call of the lambda in the notebook at that moment gives: variables have their present values, defaults are those the lambda was made with. Giving the same lambda object again lets the library recognise it, as with unregistering a callback.", "quantifier": "all states of the program (global variables, variables of enclosing functions, functions referring to each other in any way, including recursively), all lambdas with and without a default, all later states, all arguments", "why_tests_cant": "The library gets a new function made from the source text of the lambda, with copies of the variables it refers to and of the functions it calls. Whether the copy and the lambda agree depends on how functions refer to each other and on what happens between the call of the library and the call of the function; tests have few such shapes.", "anchors": ["core/ipyflow/tracing/uninstrument.py:19-67", "core/ipyflow/tracing/uninstrument.py:80-105", "core/ipyflow/tracing/ipyflow_tracer.py:1170-1176"]}
{"id": "C125", "title": "A function made from a slice gives what running the slice gives", "statement": "`code(x).to_function()` gives a function. Calling it with some of the names that the slice needs as keyword arguments gives what running the slice shows when these names have the values given and all others have the values they have in the notebook; it raises an error exactly when running the slice does. It has one parameter for each name that the slice needs.", "quantifier": "all slices (texts of lines with assignments, expressions, comments, several statements in a line, statements over several lines), all values of global variables, all keyword arguments", "why_tests_cant": "Whether the function and the slice agree depends on the shape of the last line, on which names are read before they are assigned, on names of modules, and on the arguments; the tests have two slices that end in a single expression.", "anchors": ["core/ipyflow/slicing/mixin.py:165-197", "core/ipyflow/data_model/cell.py:980-981", "core/ipyflow/data_model/statement.py:249-250"]}
{"id": "C126", "title": "What is shown and copied from a slice is the slice", "statement": "In a notebook, `code(x)` shows the code that `x` depends on, with links to copy it. The code is shown as it is written, and clicking on a link puts exactly the code on the clipboard.", "quantifier": "all texts, that is, all finite sequences of code points", "why_tests_cant": "The text passes through an escape of Python, an attribute of HTML, an address and a literal of a script, each with its own special characters; there is no test that renders the page, and tests of single texts do not say which characters survive all four steps.", "anchors": ["core/ipyflow/slicing/mixin.py:85-149"]}
{"id": "C127", "title": "The kernel works with the code on the screen", "statement": "Once the notebook has come to rest after an edit, and whenever a schedule is asked for, the code with which the kernel analyses each code cell is the code shown in the notebook, as long as that code can be parsed; a cell whose code cannot be parsed keeps the last code the kernel accepted; a cell that is no longer a code cell is not analysed.", "quantifier": "for all histories of edits, pauses, requests and runs, all notebooks and all code", "why_tests_cant": "The failing histories depend on timing between the editor's debounce and other messages, and the claim ranges over all interleavings and notebooks.", "anchors": ["frontend/labextension/src/index.ts:466-482", "frontend/labextension/src/store.ts:61-80", "core/ipyflow/comm_manager.py:228-345", "core/ipyflow/flow.py:523-528"]}
{"id": "C128", "title": "A link between cells goes away with the code that makes it", "statement": "If the code of a cell is edited so that it no longer uses, or no longer assigns, the variables because of which it was linked to another cell, the answers of the kernel no longer contain the link, and it does not come back until a cell is run that makes it again; while one cell assigns and the other uses a variable of the link, the link stays.", "quantifier": "for all histories of edits, pauses, requests and runs, all cells, all links", "why_tests_cant": "A test fixes one edit and looks once; the link reappears or lingers only after particular later messages or when the edit happens during a run.", "anchors": ["core/ipyflow/comm_manager.py:245-275", "core/ipyflow/data_model/cell.py:811-865", "core/ipyflow/frontend.py:525-553"]}
{"id": "C129", "title": "Moving a widget runs again the cells that read it", "statement": "When the value of a widget that has a name changes, because the user moved it or typed in it or because a program set it, the cells whose last run read its value are reported as ready from then on until they are run again, whatever else happens meanwhile; a cell that has just been run is not reported because of the widgets it read. Setting the value of a widget in a program does what it does without ipyflow.", "quantifier": "for all histories of runs and moves, all code made of widget creations, reads and writes, all values", "why_tests_cant": "The failures depend on the text form of the value and on the order of reads and writes within a cell; a test tries a few numbers.", "anchors": ["core/ipyflow/data_model/symbol.py:297-302", "core/ipyflow/data_model/symbol.py:1157-1221", "core/ipyflow/data_model/cell.py:704-760", "core/ipyflow/frontend.py:391-401"]}
{"id": "C130", "title": "The code for what was read from a widget gives what it shows", "statement": "If a variable holds the value read from a widget, the code that `code(x)` gives for it, run by itself in a fresh session, gives the variable the value that the widget shows now, as the notebook would after running the reading cell again.", "quantifier": "for all histories of runs and moves, all widgets, values and variables", "why_tests_cant": "Whether the made-up assignment reaches the slice, and what it evaluates to, depends on the whole history of moves and on the other widgets of the cell.", "anchors": ["core/ipyflow/data_model/symbol.py:1186-1221", "core/ipyflow/data_model/statement.py:117-155", "core/ipyflow/slicing/mixin.py:293-311", "core/ipyflow/slicing/mixin.py:421-452"]}
{"id": "C131", "title": "A widget that has a name is listened to, and the user's own callbacks stay", "statement": "As long as a name is bound to a widget, changes of its value are noticed; and callbacks that the user has added to a widget with `observe` are called until the user removes them, whatever is assigned to which names.", "quantifier": "for all histories of assignments (of widgets and other objects, to any names, using the name itself or not) and added callbacks", "why_tests_cant": "Which assignments silence a widget depends on how many names it had when each of them was bound; a test looks at one widget with one name.", "anchors": ["core/ipyflow/data_model/symbol.py:710-716", "core/ipyflow/data_model/symbol.py:1041-1046", "core/ipyflow/data_model/symbol.py:1131-1133", "core/ipyflow/data_model/symbol.py:1157-1173"]}
{"id": "C132", "title": "A cell that uses values from further down is held back once", "statement": "In in-order mode with `%flow warn_ooo`, running a cell that reads a variable last set by a cell further down does not execute it but shows the output of its last execution (what was printed, then the result); running it again right away executes it and shows its own output. All other runs are executed and show their own output. A run that is held back changes no variable.", "quantifier": "for all histories of runs, moves of cells and changes of the setting, all code, all outputs", "why_tests_cant": "What is shown depends on the whole chain of earlier versions of the cell and on which of them were held back; a test runs one cell twice.", "anchors": ["core/ipyflow/shell/interactiveshell.py:555-623", "core/ipyflow/shell/interactiveshell.py:646-673", "core/ipyflow/flow.py:564-581", "core/ipyflow/frontend.py:424-430", "core/ipyflow/tracing/output_recorder.py:81-94"]}
{"id": "C133", "title": "A run that was held back does not count as one", "statement": "In in-order mode, a cell is reported to be run again exactly if a variable that its last execution read has been set since by a cell that is not further down; a run that was held back changes nothing about that.", "quantifier": "for all histories of runs, moves of cells and changes of the setting, all cells", "why_tests_cant": "It takes a cell that is out of date for one reason and held back for another; the reports after that are looked at by no test.", "anchors": ["core/ipyflow/shell/interactiveshell.py:566-577", "core/ipyflow/data_model/cell.py:362-416", "core/ipyflow/data_model/cell.py:726-760", "core/ipyflow/frontend.py:391-401"]}
{"id": "C134", "title": "The code of a version makes that version", "statement": "`code(x)` gives a program that, run on its own, makes `x` equal to what it is now, and `code(x, version=v)` one that makes it equal to what it was after the `v`-th of its changes, counting each statement that binds `x` or changes the dictionary that it is; if there is no such change an exception is raised. `version=n-1`, for `n` changes, means the same as `version=-1`.", "quantifier": "for all notebooks of assignments to variables, dictionaries and their elements and of second names for them, all versions (negative ones too), whatever links static analysis adds", "why_tests_cant": "Which statements are in the code depends on all that happened to the variable, its elements and its other names; the tests look at the versions of a list in two notebooks.", "anchors": ["core/ipyflow/data_model/symbol.py:323-372", "core/ipyflow/data_model/symbol.py:1060-1080", "core/ipyflow/data_model/symbol.py:1327-1369", "core/ipyflow/api/lift.py:28-37"]}
{"id": "C135", "title": "The timestamp of a variable is that of its last change", "statement": "`timestamp(x)` is the time of the last statement that bound `x` or changed the dictionary that it is, under whatever name; a statement that changes nothing about it does not move it.", "quantifier": "for all notebooks of assignments to variables, dictionaries and their elements and of second names for them", "why_tests_cant": "It depends on which names a dictionary had at each change; a test looks at one.", "anchors": ["core/ipyflow/data_model/symbol.py:316-321", "core/ipyflow/data_model/symbol.py:1065-1079", "core/ipyflow/data_model/symbol.py:1349-1369"]}
{"id": "C136", "title": "The code of an attribute computes the attribute", "statement": "`code(o.a)` gives a program that, run on its own, makes `o.a` what it is now, and `code(x)` one that makes the variable `x` and all attributes of its object what they are now; however the attributes were set, including from their own previous values.", "quantifier": "for all notebooks of assignments to variables and attributes, plain and augmented, all variables and attributes", "why_tests_cant": "Whether a link is made depends on the order in which the attribute is noted as read and as set; a test with one update cannot tell that from luck.", "anchors": ["core/ipyflow/tracing/symbol_resolver.py:133-138", "core/ipyflow/tracing/ipyflow_tracer.py:316-318", "core/ipyflow/tracing/ipyflow_tracer.py:943-962", "core/ipyflow/data_model/symbol.py:1240-1309", "core/ipyflow/data_model/symbol.py:1063-1064"]}
{"id": "C137", "title": "The code of a variable includes what called functions read", "statement": "If a variable was computed by calling functions that read global variables, `code(x)` gives a program that, run on its own, makes `x` what it is now; also when a cell calls the same function several times and sets variables in between.", "quantifier": "for all notebooks of cells with any number of assignments, function definitions and calls, including statements that raise, and all variables", "why_tests_cant": "The links of a function body are made the first time it is called in a cell, and static links from the state before the cell; which of them are enough depends on the order of calls and assignments.", "anchors": ["core/ipyflow/tracing/ipyflow_tracer.py:358-386", "core/ipyflow/tracing/ipyflow_tracer.py:400-475", "core/ipyflow/data_model/statement.py:717-733", "core/ipyflow/analysis/live_refs.py:359-384", "core/ipyflow/analysis/live_refs.py:578-663", "core/ipyflow/data_model/symbol.py:354-372", "core/ipyflow/shell/interactiveshell.py:273-275"]}
{"id": "C138", "title": "Watchpoints stop the program", "statement": "With `watchpoints(x).add(pred)` the program stops in the debugger after exactly those executions of statements that give `x` another value for which the predicate holds.", "quantifier": "for all sessions of cells with assignments to any number of variables, loops, watchpoints added at any time, and all predicates, including those that raise", "why_tests_cant": "Which executions are looked at depends on what else was executed in the cell and on whether any predicate of any variable raised before.", "anchors": ["core/ipyflow/tracing/watchpoint.py:5-61", "core/ipyflow/data_model/statement.py:712-733", "core/ipyflow/tracing/ipyflow_tracer.py:1501-1531", "core/ipyflow/tracing/ipyflow_tracer.py:293-331", "core/ipyflow/api/lift.py:119-124"]}
{"id": "C139", "title": "Code of variables set in loops and branches", "statement": "For a variable that was set in `if`, `for` or `while` statements, `code(x)` gives a program that, run on its own, gives the variable the value it has.", "quantifier": "for all sessions of cells with any number of statements, made of assignments, branches and loops nested in any way, in which nothing raises", "why_tests_cant": "Of a loop only the first iteration is traced, so the result depends on which branches the first iteration takes, what later ones set and read, and which statements of the cell came before.", "anchors": ["core/ipyflow/tracing/ipyflow_tracer.py:850-865", "core/ipyflow/tracing/ipyflow_tracer.py:1534-1606", "core/ipyflow/tracing/symbol_resolver.py:227-233", "core/ipyflow/analysis/live_refs.py:313-340", "core/ipyflow/data_model/symbol.py:1404-1445"]}
{"id": "C140", "title": "The code shown for a value is text that Python reads as the statements that were run", "statement": "What `code(x)` gives, put into Python, is read as exactly the assignments and expressions that made `x`: same targets, same values, same grouping of operators. It is never a text that Python refuses, and showing it in the notebook never raises.", "quantifier": "all lists of statements, all targets and values built from names, numbers, operators, calls and tuples, on one line or several, with the unparser of Python 3.9+ or the older package", "why_tests_cant": "Tests compare a handful of short slices; whether every nesting of operators survives being written out and having brackets taken off is a statement about all expressions.", "anchors": ["core/ipyflow/data_model/statement.py:91-115", "core/ipyflow/slicing/mixin.py:86-146", "core/ipyflow/slicing/mixin.py:454-466", "core/ipyflow/slicing/mixin.py:533-553"]}
{"id": "C141", "title": "A slice of a cell by statements shows exactly the statements that the cell ran and those they depend on", "statement": "`%flow slice --stmt` and `cell.slice(stmts=True)` show the statements that the execution of the cell ran and the statements that these depend on, and no others; `cell.code(stmts=True)` shows no more cells than `cell.code()`. For a cell that has been run there is always such a slice, even if it raised midway or has been edited since, and for one that has not been run there is a warning.", "quantifier": "all notebooks, all recorded dependencies, all executions, finished or not, all edits since, all fuel", "why_tests_cant": "Tests slice a few cells that ran to their end and were not edited; which statements of which cells appear is a statement about all recorded dependencies.", "anchors": ["core/ipyflow/data_model/cell.py:926-978", "core/ipyflow/data_model/cell.py:661-686", "core/ipyflow/line_magics.py:318-356", "core/ipyflow/slicing/mixin.py:482-530"]}
{"id": "C142", "title": "The code shown for an execution of a cell is the code that it ran", "statement": "`%flow slice`, `cell.slice()` and `cell.code()` show, for each execution of a cell that belongs to the slice, the code that this execution ran, whatever is typed into the cell afterwards; nothing is shown for an execution that was not carried out. `reproduce_cell(n, lookback=k)` prints the code that the execution, or the one k executions of the cell before, ran, and raises just if there is no such execution.", "quantifier": "all histories of executions and edits of all cells, all contents, all slices", "why_tests_cant": "Tests ask for slices right after running; what is shown for old executions after arbitrary later edits and runs is a statement about all histories.", "anchors": ["core/ipyflow/data_model/cell.py:161-163", "core/ipyflow/data_model/cell.py:362-417", "core/ipyflow/data_model/cell.py:557-559", "core/ipyflow/data_model/cell.py:983-1000", "core/ipyflow/comm_manager.py:228-275", "core/ipyflow/shell/interactiveshell.py:522-623"]}
{"id": "C143", "title": "The code of a variable reproduces objects changed by methods under several names", "statement": "If sets are made, given further names, and changed by `s.add(e)` and `s.discard(e)` through any of their names, then `code(x)` runs on its own and gives what `x` is in the notebook, for numbers computed from sets and for the sets themselves.", "quantifier": "all notebooks of such statements that run without an exception, all variables", "why_tests_cant": "Which name an object is changed through, and when the names were given, matters; tests look at a few orders.", "anchors": ["core/ipyflow/data_model/symbol.py:1011-1110", "core/ipyflow/data_model/symbol.py:1259-1325", "core/ipyflow/data_model/utils/update_protocol.py:38-60", "core/ipyflow/tracing/external_calls/base_handlers.py:170-250", "core/ipyflow/tracing/ipyflow_tracer.py:642-703", "core/ipyflow/data_model/statement.py:717-733"]}
{"id": "C144", "title": "Tracebacks show the frames of the program and no others", "statement": "When a cell raises, the traceback that is shown consists of the frames of the program, in order; frames of the tracing machinery are shown neither for the exception that was raised nor for the exceptions it came from. Showing the traceback again shows the same.", "quantifier": "all tracebacks and chains of exceptions, whatever their frames, all positions of frames of the machinery", "why_tests_cant": "The linked list of a traceback is changed in place while it is walked along; tests look at no tracebacks, and a few could not cover all patterns of frames.", "anchors": ["core/ipyflow/shell/interactiveshell.py:705-739"]}
{"id": "C145", "title": "Marks on cells show what the last schedule says", "statement": "In the JupyterLab client, after each run and each change of the active or selected cells, a code cell of the shown notebook is marked as waiting, ready, or making others ready if and only if the last schedule says so, and the marked slices are the cells that would be run with the chosen cells and the cells that these are computed from. A cell that has been executed since the last schedule is not marked as ready.", "quantifier": "all sequences of schedules, executions, selections, changes of the active cell, added and removed cells, and switches between notebooks, all graphs of cells", "why_tests_cant": "Marks are added and removed by handlers of five kinds of events that may come in any order; the client has no tests of what is shown.", "anchors": ["frontend/labextension/src/index.ts:485-501", "frontend/labextension/src/index.ts:555-769", "frontend/labextension/src/index.ts:805-1002", "frontend/labextension/src/dom.ts:90-121"]}
{"id": "C146", "title": "Selecting cells in one notebook leaves the others alone", "statement": "When several notebooks are open, a change of the selection in the one that is shown updates its marks from its own schedule, and changes nothing about the other notebooks; in particular a notebook in the background still runs the cells that its schedules call for.", "quantifier": "all numbers of notebooks, all orders in which they were opened, all sequences of events", "why_tests_cant": "Every connected notebook handles every change of selection; what happens depends on the order of connection, and tests of the client would have to open several notebooks.", "anchors": ["frontend/labextension/src/index.ts:545-553", "frontend/labextension/src/index.ts:703-769", "frontend/labextension/src/store.ts:270-280"]}
{"id": "C147", "title": "Code run inside a cell counts as part of that cell", "statement": "Code that a cell runs as a cell of its own (by %%capture, %rerun, %edit, or by calling run_cell) is treated as part of the cell: every variable is taken to have been set by the cell whose run set it last, a cell that reads a variable depends on the cell that set it, what a cell read stays recorded, and the code kept for a cell is the one that was run last.", "quantifier": "For all sequences of runs of cells, with statements and runs of code inside runs in any order, number and depth.", "why_tests_cant": "The tests run no code inside cells; what goes wrong shows only when further cells are run, and depends on how many runs there were inside.", "anchors": ["core/ipyflow/shell/interactiveshell.py:244-460", "core/ipyflow/shell/interactiveshell.py:535-583", "core/ipyflow/data_model/cell.py:362-417", "core/ipyflow/utils/ipython_utils.py:17-28", "core/ipyflow/tracing/ipyflow_tracer.py:251-293"]}
{"id": "C148", "title": "The variable that %%capture fills is tracked", "statement": "After a cell that begins with %%capture and the name of a variable, with or without options, ipyflow tracks this variable as set by the cell, and if no name is given it tracks no new variable.", "quantifier": "For all lines with any options and any blanks.", "why_tests_cant": "The tests contain no %%capture.", "anchors": ["core/ipyflow/shell/interactiveshell.py:425-436"]}
{"id": "C149", "title": "A stub file registers what it says for the running Python", "statement": "Registering a file of annotations registers exactly the stubs written outside of strings and those in strings that start with a colon and a condition on sys.version_info that holds, in the order of the file; all other strings are comments without effect; and nothing but comparisons of sys.version_info with numbers is evaluated.", "quantifier": "For all files, with blocks nested to any depth, any expressions in headers, all operators and chains of comparisons, and all versions of Python.", "why_tests_cant": "The tests register one file with one condition that holds on all supported versions; no string that is a comment, no nested block, no condition that fails.", "anchors": ["core/ipyflow/annotations/compiler.py:240-315", "core/ipyflow/annotations/compiler.py:194-211"]}
{"id": "C150", "title": "Registered annotations of functions are in force", "statement": "After annotations were registered, from a file or from a directory, a function of a module that was or is then imported has the last annotation that the registered stubs give for it, no function has an annotation that none of the stubs gives, and a file with an error does not keep the annotations of other files from having effect.", "quantifier": "For all sequences of imports and registrations of files and directories, with any stubs, any order of files and of imports, and errors anywhere.", "why_tests_cant": "The tests register one directory once, before compiling by hand, and no file with an error; whether an annotation is in force depends on the order of imports and registrations.", "anchors": ["core/ipyflow/annotations/compiler.py:223-237", "core/ipyflow/annotations/compiler.py:318-375", "core/ipyflow/line_magics.py:545-555", "core/ipyflow/tracing/ipyflow_tracer.py:820-821"]}
{"id": "C151", "title": "Pointing at the bar of a cell lights the cells linked with it", "statement": "In the JupyterLab client, when the pointer comes to the bar beside the input or output of a code cell, exactly those bars light up that the last schedule links with it: the other bar of a cell whose output is out of date, and unless execution is reactive the inputs of the cells that it waits for and, from the bar of the input, the bars of the cells that would make it ready; each in the colour of waiting cells if it waits itself, and else in that of cells that make others ready. They stay lit as long as the pointer is there.", "quantifier": "For all sequences of schedules, refreshes, added, rendered and removed cells and movements of the pointer, all links.", "why_tests_cant": "What is lit depends on what listeners captured when they were attached and on which cells have been rendered or removed since; the client has no tests of it.", "anchors": ["frontend/labextension/src/dom.ts:8-92", "frontend/labextension/src/dom.ts:125-152", "frontend/labextension/src/index.ts:632-701"]}
{"id": "C152", "title": "No bar stays lit when the pointer has left", "statement": "In the JupyterLab client, whenever the pointer is on no bar of a cell, no bar of any cell of the notebook is lit.", "quantifier": "For all sequences of schedules, refreshes, added, rendered and removed cells and movements of the pointer, all links.", "why_tests_cant": "Bars are lit by one listener and darkened by another, and schedules, refreshes and changes of cells may come in between in any order; the client has no tests of it.", "anchors": ["frontend/labextension/src/dom.ts:30-57", "frontend/labextension/src/dom.ts:94-152", "frontend/labextension/src/index.ts:581-593"]}
{"id": "C153", "title": "Uses of values set further below are listed", "statement": "With checking of out-of-order uses switched on (%flow lint_ooo), each schedule lists for each cell exactly the places at which its last execution used a variable whose value had then been set by a cell that now stands below it in the notebook, with the number of the execution that had set it.", "quantifier": "For all sequences of executions of cells, orders of cells told by the client and changes of the direction of flow, all programs of statements that read and set variables and may raise.", "why_tests_cant": "What is listed depends on which execution had last set each variable at the time of each use and on where cells have been moved since; tests only look at single short sequences of cells.", "anchors": ["core/ipyflow/frontend.py:493-523", "core/ipyflow/data_model/symbol.py:1240-1298", "core/ipyflow/data_model/cell.py:175-186", "core/ipyflow/data_model/cell.py:420-432"]}
{"id": "C154", "title": "Registered tracers see the cells", "statement": "While a cell is traced, its statements are seen by exactly those tracers that were registered when the cell began and have not been deregistered since, one for each name; the recorder of output does not see cells that capture their output themselves (%%capture). Cells run while tracking is off are seen by none.", "quantifier": "For all sequences of cells that register, deregister and re-register tracers, switch tracking on and off, run statements, and begin with %%capture or not, and of debuggers attached and disconnected in between.", "why_tests_cant": "Which tracers are started depends on what the first traced cell was since the last change and on where changes were made; the failures need particular orders of cells (capturing first, registering while off) that tests do not try.", "anchors": ["core/ipyflow/line_magics.py:494-542", "core/ipyflow/shell/interactiveshell.py:104-142", "core/ipyflow/shell/interactiveshell.py:244-322"]}
{"id": "C155", "title": "Debugging leaves tracking as it was", "statement": "While a debugger is attached no dataflow is tracked, and after it was disconnected dataflow is tracked if and only if the user last asked for it.", "quantifier": "For all sequences of cells, %flow on, %flow off, attached and disconnected debuggers.", "why_tests_cant": "The debugger switches the user's own setting; tests have no debugger, and the failure needs one disconnected after the user switched tracking off.", "anchors": ["core/ipyflow/kernel/kernel.py:120-135", "core/ipyflow/line_magics.py:197-206", "core/ipyflow/shell/interactiveshell.py:393-424"]}
{"id": "C156", "title": "The cells above and below are found", "statement": "In a running cell, cell_below() is the code cell right below it in the notebook, cell_above() the one right above it and cell_at_offset(k) the k-th from it, as the notebook was last told by the client; None if there is none.", "quantifier": "For all notebooks of code and text cells, all orders in which their cells are run, edited, moved, added and removed, and all offsets.", "why_tests_cant": "Positions are those the client sent at some earlier moment, may be missing, and may be those of cells that are gone; tests set up the positions themselves and never with text cells in between.", "anchors": ["core/ipyflow/models.py:43-58", "core/ipyflow/data_model/cell.py:176-186", "core/ipyflow/data_model/cell.py:419-432", "core/ipyflow/data_model/cell.py:497-502", "frontend/labextension/src/store.ts:61-72", "core/ipyflow/comm_manager.py:281-327"]}
{"id": "C157", "title": "The cell that was run last", "statement": "In a running cell, last_run_cell() is the cell whose run came right before; None if there is none.", "quantifier": "For all sequences of runs of cells, kept in IPython's history or not.", "why_tests_cant": "It is looked up by number, and numbers are put right by those of IPython; the failure needs a run that is not stored in the history, which tests do not mix with others.", "anchors": ["core/ipyflow/models.py:61-62", "core/ipyflow/data_model/cell.py:364-416", "core/ipyflow/data_model/cell.py:490-491"]}
{"id": "C158", "title": "What a run wrote can be read by its number", "statement": "stdout(n) and stderr(n) give what the run with the number n wrote to standard output and standard error, for good; the output of a former run of a cell may be let go of only if it is large. For numbers no run has had they raise ValueError.", "quantifier": "For all sequences of runs of cells, traced or not, kept in the history or not, whose output is recorded or captured by %%capture, and all limits of what is kept.", "why_tests_cant": "What a number gives depends on all runs since and on what the recorder saw last; tests look at the output of one run right after it.", "anchors": ["core/ipyflow/api/cells.py:8-33", "core/ipyflow/shell/interactiveshell.py:646-676", "core/ipyflow/data_model/cell.py:364-416"]}
{"id": "C159", "title": "Declared reads and writes are what counts", "statement": "A client may declare, in the metadata of a cell, which names the cell reads and which it writes. From the message that carries such a declaration on, the kernel takes the cell to read and write just the declared names, as long as the latest message about the cell declares them; a cell without a declaration is taken to read and write what its code says; a declaration can be changed and taken back; and every message of the client is answered, with all its code cells known to the kernel afterwards.", "quantifier": "for all histories of content messages and runs of cells, all cells, all declarations and all results of the analysis of the code", "why_tests_cant": "Tests send one message with a declaration for a cell that has been run. What happens when the declaration comes before the first run, when it is withdrawn, or when the cell is run again depends on the order of messages and runs, of which there are infinitely many.", "anchors": ["core/ipyflow/comm_manager.py:278-345", "core/ipyflow/data_model/cell.py:446-456", "core/ipyflow/data_model/cell.py:778-808", "core/ipyflow/flow.py:522-528"]}
{"id": "C160", "title": "Links between cells survive a restart", "statement": "The client saves in the notebook which cells depend on which. After a restart of the kernel, the client has the saved links between the cells that are still in the notebook, for all cells that have not been run again; cells that have been run have the links that the kernel found. The parents and the children of cells agree at all times, and cells that were removed have no links.", "quantifier": "for all saved links, all histories of any number of sessions, runs, moves, insertions and removals of cells, edges found by the kernel and schedules, and all orders of data flow", "why_tests_cant": "A test restarts a kernel once, with one notebook. Which saved links are kept depends on which cells were run since, on what the kernel has found about other parents of the same cell, on the order of cells and on what earlier sessions saved.", "anchors": ["frontend/labextension/src/index.ts:803-822", "frontend/labextension/src/utils.ts:1-13", "core/ipyflow/flow.py:236-258", "core/ipyflow/flow.py:547-558", "core/ipyflow/frontend.py:525-588", "core/ipyflow/slicing/mixin.py:300-338"]}
{"id": "C161", "title": "Imports are recorded for the names they bind", "statement": "After a cell has run an import, the variables that the import binds are recorded with their new values, as updated by that cell; what is recorded for every other variable is as before.", "quantifier": "for all sessions of assignments, definitions, deletions, uses of modules and imports of any number of names in all forms, and all modules, packages, names of modules and attributes", "why_tests_cant": "Whether a package is taken for a variable depends on its own name, on whether anything in the session refers to it already and on the other names of the same statement; a test imports a few modules in a new session.", "anchors": ["core/ipyflow/data_model/statement.py:599-700", "core/ipyflow/tracing/ipyflow_tracer.py:705-775", "core/ipyflow/data_model/scope.py:284-440"]}
{"id": "C162", "title": "Imports are exported as imports", "statement": "In the exported graph of the notebook, a variable that a cell uses is given as an import statement that the cell needs if and only if the variable was last bound by an import.", "quantifier": "for all sessions of assignments, definitions, deletions, uses of modules and imports of any number of names in all forms, and all modules, packages, names of modules and attributes", "why_tests_cant": "What a variable counts as depends on all of its bindings since it was first known, and on whether the module was known before; no test exports a graph of a notebook with imports.", "anchors": ["core/ipyflow/experimental/dag.py:25-57", "core/ipyflow/data_model/scope.py:195-229", "core/ipyflow/data_model/scope.py:366-440", "core/ipyflow/data_model/symbol.py:446-452"]}
{"id": "C163", "title": "The name shown for a part of an object is an expression for it", "statement": "The name under which a part of a list or dictionary is shown (by `%flow deps`, `%flow waiting`, in the list of uses out of order and by watchpoints) gives that part when it is evaluated, as long as the program can get at the part.", "quantifier": "for all sessions of assignments of displays, nested to any depth and with references to other variables, of assignments of variables and parts of them, and deletions, for all keys that are natural numbers, words or strings of digits, and all orders in which sets are gone through", "why_tests_cant": "The name is put together from names that the objects around the part were given in earlier cells; whether these are still right depends on all assignments and deletions since; tests look at names of variables just assigned.", "anchors": ["core/ipyflow/data_model/symbol.py:422-424", "core/ipyflow/data_model/symbol.py:738-750", "core/ipyflow/data_model/scope.py:493-507", "core/ipyflow/data_model/namespace.py:229-238", "core/ipyflow/data_model/statement.py:418-422", "core/ipyflow/tracing/ipyflow_tracer.py:1283-1425"]}
{"id": "C164", "title": "The cells that fail the type checker are the ones marked", "statement": "With `mark_typecheck_failures_unsafe`, whenever the client asks for the schedule, a cell is marked as failing the type check exactly if its present text, preceded by declarations of the present types of the variables it reads, does not pass the type checker.", "quantifier": "for all type checkers, all texts and the variables they read, and all sequences of runs of cells with any assignments, changes of values in place, deletions of variables, edits and requests", "why_tests_cant": "The verdict is kept with the cell and dropped only at some assignments; whether a kept verdict is still right depends on every edit, assignment and request since it was made.", "anchors": ["core/ipyflow/data_model/cell.py:128-130", "core/ipyflow/data_model/cell.py:850-866", "core/ipyflow/data_model/cell.py:880-924", "core/ipyflow/data_model/symbol.py:710-735", "core/ipyflow/comm_manager.py:228-276", "core/ipyflow/frontend.py:403-446", "core/ipyflow/flow.py:564-576"]}
{"id": "C165", "title": "Cells that show the slice of a tag are run again with the cells that carry it", "statement": "A cell that runs `%flow slice --tag $t` is listed to be run again when the client asks for the schedule after the run of a cell that carries the tag t, and no other cell is listed because of tags. A cell carries the tags that the notebook has for it at its latest run and those put on it with `%flow tag`, unless removed with `%flow tag --remove`.", "quantifier": "for all sequences of runs of cells with any tags, of `%flow slice`, `%flow tag` and `%flow tag --remove` commands with and without cell numbers, of cells mentioned by the client and of cells that get their id after their run, and for all cells the request may name", "why_tests_cant": "The tables by tag are changed by every run, command and change of id, and the answer depends on all of them; tests look at single commands.", "anchors": ["core/ipyflow/frontend.py:479-491", "core/ipyflow/data_model/cell.py:259-280", "core/ipyflow/data_model/cell.py:312-318", "core/ipyflow/data_model/cell.py:388-417", "core/ipyflow/line_magics.py:311-380", "core/ipyflow/comm_manager.py:164-184"]}
{"id": "C166", "title": "The variables a text is found to assign are those it assigns", "statement": "The variables that the analysis of a cell's text reports as assigned are those that the text contains an assignment to, outside functions and classes: by `=`, augmented and annotated assignments with a value, `:=`, imports, `for` and `with` targets, `def` and `class`.", "quantifier": "for all texts made of these statements, branches, loops, `with` and `try` statements nested to any depth, all expressions and targets in them, and both ways of analysing", "why_tests_cant": "The answer depends on the place of every name in the text, and there is no bound on texts; tests look at single lines.", "anchors": ["core/ipyflow/analysis/live_refs.py:83-95", "core/ipyflow/analysis/live_refs.py:148-345", "core/ipyflow/analysis/live_refs.py:347-418", "core/ipyflow/analysis/live_refs.py:663-680"]}
{"id": "C167", "title": "After an edit, links are shown for the variables that the new text assigns", "statement": "After a cell was run and its text edited, a link from the cell to a cell that uses a variable which the run assigned is shown exactly if the new text contains an assignment to the variable.", "quantifier": "for all runs, with any statements that assign the variable, and all new texts", "why_tests_cant": "How the run assigned the variable and what the new text is decide together; tests look at one edit.", "anchors": ["core/ipyflow/frontend.py:548-554", "core/ipyflow/data_model/scope.py:231-280", "core/ipyflow/data_model/scope.py:348-365", "core/ipyflow/analysis/live_refs.py:83-95"]}
{"id": "C168", "title": "What the client tells about a variable reaches the cells and variables that use it", "statement": "After the client has told the kernel that a variable holds a new object, every cell that reads the variable is offered to be run again or waits, and every variable computed from it is out of date; the same holds after a request to refresh the variable. A request with the object that the variable holds already is declined and changes nothing.", "quantifier": "for all sequences of runs, requests and changes of cell ids, all variables, all sets of named dependencies and all networks of dependencies", "why_tests_cant": "Who is reached depends on the dependencies and the times of all earlier assignments; tests make one request after one run.", "anchors": ["core/ipyflow/comm_manager.py:368-395", "core/ipyflow/data_model/scope.py:282-347", "core/ipyflow/data_model/symbol.py:1019-1110", "core/ipyflow/data_model/symbol.py:1343-1375", "core/ipyflow/data_model/utils/update_protocol.py:23-66", "core/ipyflow/data_model/utils/update_protocol.py:184-199", "core/ipyflow/frontend.py:386-447"]}
{"id": "C169", "title": "The cell named as the last one that updated a variable", "statement": "Asked for the cell that updated a variable last, the kernel names, by its present id, the cell whose run assigned the variable last; if the client has told of a new object or refreshed the variable since, it names the cell that had been run last at that time. No cell is named exactly if the variable is unknown or no cell had been run at that time.", "quantifier": "for all sequences of runs, requests and changes of cell ids, and all variables", "why_tests_cant": "The answer depends on the order of all runs and requests and on later changes of ids; tests ask once after one run.", "anchors": ["core/ipyflow/comm_manager.py:408-421", "core/ipyflow/comm_manager.py:368-395", "core/ipyflow/data_model/cell.py:362-417", "core/ipyflow/data_model/cell.py:490-516"]}
{"id": "C170", "title": "A matcher of an annotation matches the symbols that are as it says", "statement": "Held against a symbol, a matcher built from `AllOf`, `AnyOf`, `Display`, `FileSystem`, `Parents`, `Children` and names gives an answer, which is positive exactly if the symbol is as described; for `Parents` and `Children` this means that different parents or children with names can be found for the matchers inside, and no other ones exist if the match is to be exact.", "quantifier": "for all matchers nested to any depth, all networks of symbols, and all orders in which sets are walked over", "why_tests_cant": "Whether a choice of different parents exists may depend on giving back earlier choices at any depth; tests try single matchers.", "anchors": ["core/ipyflow/annotations/annotations.py:46-115", "core/ipyflow/annotations/annotations.py:118-215"]}
{"id": "C171", "title": "Matchers bind their names to the symbols they matched", "statement": "After a match every name is bound to the symbol, or for files the object of the symbol, that the matcher with this name was held against and that is as it says; every matcher in the match binds its name, and if several matchers of `AnyOf` match, the first one wins.", "quantifier": "for all matchers nested to any depth, all networks of symbols, and all orders in which sets are walked over", "why_tests_cant": "Bindings of nested matchers are merged at every level; tests look at one level.", "anchors": ["core/ipyflow/annotations/annotations.py:54-115", "core/ipyflow/annotations/annotations.py:139-150", "core/ipyflow/annotations/annotations.py:170-201"]}
{"id": "C172", "title": "Loading the extension puts cells under ipyflow, unloading it ends this", "statement": "After `%load_ext ipyflow`, and until `%unload_ext ipyflow`, cells are run with ipyflow, by ipyflow's kernel if there is one; before and after, they are run as they were without it, by the former kernel. The client is told so. In whatever order, in whatever cells and however deep in code run by cells the extension is loaded, unloaded and reloaded, the last such command decides, and none of them makes the run of a cell fail.", "quantifier": "for all sessions in terminals and notebooks, all sequences of cells with any commands, including cells that raise and code run as cells of their own, nested to any depth", "why_tests_cant": "The class of the shell is changed at the end of runs that began under ipyflow only, so the effect depends on how the commands are spread over cells and nested runs.", "anchors": ["core/ipyflow/__init__.py:load_ipython_extension", "core/ipyflow/__init__.py:unload_ipython_extension", "core/ipyflow/shell/__init__.py:unload_ipython_extension", "core/ipyflow/shell/interactiveshell.py:IPyflowInteractiveShell._maybe_eject", "core/ipyflow/kernel/kernel.py:IPyflowKernel._maybe_eject"]}
{"id": "C173", "title": "Registered tracers survive reloading the extension", "statement": "A tracer that was registered with `%flow register_tracer` stays registered, whatever cells do later, and also when the extension is reloaded or unloaded and loaded again.", "quantifier": "for all sessions and all sequences of cells, with nested runs, and all configurations", "why_tests_cant": "Whether the list of tracers is set up anew depends on whether a run ended between unloading and loading.", "anchors": ["core/ipyflow/shell/interactiveshell.py:IPyflowInteractiveShell._initialize", "core/ipyflow/shell/interactiveshell.py:IPyflowInteractiveShell.inject", "core/ipyflow/line_magics.py:register_tracer"]}
{"id": "C174", "title": "deps(e), code(e), timestamp(e) and the like speak about the variable or part that e denotes", "statement": "When a function of the interface that takes a variable or a part of one (lift, code, deps, users, timestamp, watchpoints, set_tag, ...) is called with an expression that denotes a tracked variable, attribute or element, it speaks about that variable, attribute or element and not about another one, wherever in the argument list and in the program the call stands; of anything else it raises an error.", "quantifier": "for all expressions built from names, attributes, subscripts, calls, operations and displays, all symbol tables and objects, all argument lists", "why_tests_cant": "Python passes objects, not variables; the tracer guesses the variable from the symbols mentioned in the text that have the same object; small numbers, None and shared objects make the guess go wrong, which depends on values and on how the expression is written.", "anchors": ["core/ipyflow/tracing/ipyflow_tracer.py:1070-1126", "core/ipyflow/tracing/symbol_resolver.py:24-293", "core/ipyflow/analysis/live_refs.py:386-415", "core/ipyflow/api/lift.py:12-15"]}
{"id": "C175", "title": "A value depends on what properties, operators and other functions read that run without being called in the text", "statement": "When evaluating the right-hand side of an assignment runs functions of the notebook that are not called by name in it (getters of properties, __getitem__, __add__, functions called back by a builtin), the variable that is set is recorded to depend on the variables that these functions read to make their results, so that code() contains what makes these and the cell is run again when they change.", "quantifier": "for all expressions built from names, literals, attributes, subscripts, operations and calls, each of which may run a function, and all sequences of such statements in a cell", "why_tests_cant": "Which node of the expression gets the dependencies depends on what was evaluated just before and on the stack of calls; expressions nest without bound and most tests call functions by name.", "anchors": ["core/ipyflow/tracing/ipyflow_tracer.py:400-482", "core/ipyflow/tracing/ipyflow_tracer.py:828-841", "core/ipyflow/tracing/ipyflow_tracer.py:923-926", "core/ipyflow/tracing/symbol_resolver.py:57-163"]}
{"id": "C176", "title": "`%flow <command> <argument> > <file>` writes to the file what the command prints without it", "statement": "For every command, argument and file, running `%flow` with `> file` at the end of the line writes to that file exactly the text that the same line prints without it, prints nothing, changes, warns of and raises the same, leaves every other file alone, and leaves the file as it was if there is no text; `>>` does not replace another file; an argument reaches the command whole; a command with no effect warns and writes nothing.", "quantifier": "all lines (words, arguments, file names), states and sets of files, whatever the commands compute", "why_tests_cant": "Tests run single commands; the cuts of the line at the first blank and the first `>` interact with every argument, every spelling of a command and every file name, and with commands that print on their own.", "anchors": ["core/ipyflow/line_magics.py:81-192", "core/ipyflow/line_magics.py:383-396", "core/ipyflow/line_magics.py:545-555"]}
{"id": "C177", "title": "When a cell raises, the client is told and the reactive run ends", "statement": "The schedules that the kernel sends say that the last execution was an error exactly if the last cell that was run raised or could not be compiled, and after such a run the client runs no further cell reactively.", "quantifier": "all histories of runs (failing, not compiling, with exceptions of ipyflow's own hooks at every place), control messages, requests for schedules and debounced schedules; all states of the client and all schedules", "why_tests_cant": "Tests of failing cells look at one run; that the flag is about ipyflow's own exceptions and is overwritten at the end of each run shows only over histories that mix the two kinds of failure and over the client's loop.", "anchors": ["core/ipyflow/shell/interactiveshell.py:364-460", "core/ipyflow/flow.py:477-491", "core/ipyflow/comm_manager.py:201-203", "core/ipyflow/data_model/symbol.py:64-83", "frontend/labextension/src/index.ts:883-888"]}
{"id": "C178", "title": "The names in a running function mean what they mean in Python", "statement": "While a function of the notebook runs, its names stand for its own parameters and variables and otherwise for those of the call of the enclosing function that made it (or the notebook's), whatever the way it is called: by its name, by another variable, by a decorator's result, from a property, an operator or a library.", "quantifier": "every sequence of definitions, assignments, calls, returns and exceptions", "why_tests_cant": "Functions may be made, passed around and called in unboundedly many ways and orders.", "anchors": ["core/ipyflow/data_model/statement.py:Statement.get_post_call_scope", "core/ipyflow/data_model/symbol.py:Symbol.update_stmt_node", "core/ipyflow/data_model/symbol.py:Symbol.update_deps", "core/ipyflow/tracing/ipyflow_tracer.py:DataflowTracer.before_call"]}
{"id": "C179", "title": "The variables of a generator stay its own when it goes on after a yield", "statement": "What a generator (or a coroutine) of the notebook reads and assigns is recorded for its own variables, before and after each yield: it changes nothing that is known of the variables of the code that makes it go on, the notebook's own ones included.", "quantifier": "every sequence of calls, yields, resumptions, assignments and reads", "why_tests_cant": "Generators can be suspended and resumed in any order from any place.", "anchors": ["core/ipyflow/tracing/ipyflow_tracer.py:DataflowTracer.handle_call", "core/ipyflow/tracing/ipyflow_tracer.py:DataflowTracer._get_stmt_node_for_sys_event", "core/ipyflow/tracing/ipyflow_tracer.py:DataflowTracer._resolve_store_data_for_simple_target", "core/ipyflow/data_model/statement.py:Statement.get_post_call_scope"]}
{"id": "C180", "title": "The cells reported as newly ready are exact", "statement": "The schedule reports a cell as newly ready, unless the request says not to, exactly if the cell is ready, has been run before, stands below the cell run last if the flow is in order, and either was not ready in the schedule before or is outdated because of a run that belongs to the reactive run that is going on.", "quantifier": "every notebook, order of cells, setting and history of runs", "why_tests_cant": "Whether a cell is newly ready depends on all recorded links, on their order, on positions and on earlier schedules.", "anchors": ["core/ipyflow/frontend.py:FrontendCheckerResult._compute_readiness", "core/ipyflow/frontend.py:FrontendCheckerResult._check_one_cell", "core/ipyflow/frontend.py:FrontendCheckerResult._compute_dag_based_waiters", "core/ipyflow/frontend.py:FrontendCheckerResult.to_json"]}
{"id": "C181", "title": "The cells that reactive marks force to run are exact", "statement": "The schedule forces a cell exactly if the tags of the cell run last call for it, or the cell is ready, does not stand above the cell run last if the flow is in order, and reads, where reading counts as reactive, something newer than both its own last run and the last reset; the same holds for cells that draw others along, with reading that counts as cascading.", "quantifier": "every notebook, order of cells, setting and history of runs", "why_tests_cant": "Forced cells depend on readiness, waiting, positions and on the run numbers of all that is read.", "anchors": ["core/ipyflow/frontend.py:FrontendCheckerResult._compute_reactive_cells_for_reactive_symbols", "core/ipyflow/frontend.py:FrontendCheckerResult.compute_frontend_checker_result"]}
{"id": "C182", "title": "The links reported between cells are exact", "statement": "The schedule links a checked cell with another exactly if it takes from it, in an enabled slicing context, a symbol with a name that the last run of the other cell has set (if it has been run), which is not gone from the text of the other cell; and, if the flow is in order, the other cell is the lowest above it that gives one of the symbols, and no cell in between gives them all.", "quantifier": "every notebook, set of recorded links, order of cells and setting", "why_tests_cant": "Links result from all recorded entries of all contexts, their positions and timestamps.", "anchors": ["core/ipyflow/frontend.py:FrontendCheckerResult._compute_filtered_parents", "core/ipyflow/data_model/cell.py:Cell.get_latest_parent_by_ts_map"]}
{"id": "C183", "title": "What the client has to tell the kernel reaches it in order after a restart", "statement": "What the client has to send reaches the running kernel at most once and in the order in which it was to be sent, also if the kernel was restarted in the meantime and the channel is opened again; nothing reaches it once the connection is given up.", "quantifier": "every sequence of messages, answers, restarts and disconnections, with messages arriving at any later time", "why_tests_cant": "The order depends on how far the new channel has got when further messages are made; tests use one message.", "anchors": ["frontend/labextension/src/index.ts:connectToComm.safeSend", "frontend/labextension/src/index.ts:connectToComm.onMsg", "core/ipyflow/comm_manager.py:CommManager._comm_target"]}
{"id": "C184", "title": "When all cells that were run together have finished, the client asks what to run next", "statement": "After several cells were run together - by a reactive step, a slice or a selection - the client asks for the next schedule exactly once, when the kernel has replied for all of them; the cells whose prompt is no longer pending count as executed.", "quantifier": "every sequence of overlapping rounds, replies in any order, cells run again and runs given up", "why_tests_cant": "Whether a round comes to its end depends on how it overlaps with other runs of its cells; tests run single cells one after another.", "anchors": ["frontend/labextension/src/store.ts:IpyflowSessionState.executeCells", "frontend/labextension/src/index.ts:connectToComm.onMsg"]}
{"id": "C185", "title": "Code transformers that a cell registers stay registered", "statement": "If a cell adds, removes or assigns entries of the shell's input_transformers_post or ast_transformers, or loads an extension that does, then later cells go through the same transformers of the user, in the same order, as they would without ipyflow; and after a cell none of ipyflow's own transformers is left in these lists.", "quantifier": "every session: any cells, nested runs, errors at any place, traced and untraced runs", "why_tests_cant": "Which entries survive depends on how the runs are nested and on when the lists were changed; tests look at the dataflow of cells and never at these lists.", "anchors": ["core/ipyflow/utils/ipython_utils.py:_IpythonState.ast_transformer_context", "core/ipyflow/utils/ipython_utils.py:_IpythonState.input_transformer_context", "core/ipyflow/shell/interactiveshell.py:IPyflowInteractiveShell._tracing_context"]}
{"id": "C186", "title": "Ending an embedded session gives the program its shell and prompts back", "statement": "When embed() has ended, with or without an error, the program has the shell (InteractiveShell.instance, get_ipython) and the prompts (sys.ps1, sys.ps2) it had before; so any number of sessions can be embedded, also within each other.", "quantifier": "every program with or without a shell of IPython or ipyflow, with the extension loaded or unloaded, and every sequence and nesting of embedded sessions, raising or not", "why_tests_cant": "What is left behind depends on which classes of singletons hold an instance, on nesting and on how sessions end; interactive sessions are not run by the tests at all.", "anchors": ["core/ipyflow/shell/interactiveshellembed.py:embed", "core/ipyflow/shell/interactiveshell.py:IPyflowInteractiveShell.inject", "core/ipyflow/shell/interactiveshell.py:IPyflowInteractiveShell._maybe_eject"]}
{"id": "C187", "title": "Cells marked as reactive for a tag are found by it", "statement": "The cells that are considered reactive for a tag are exactly those that were marked for it (by asking, in the cell being run, for the slice of $tag) since they were last run, under the ids they have now: running a cell again forgets its marks, renaming carries them over, and nothing done to other cells changes them.", "quantifier": "every history of runs, marks, taggings, untaggings, registrations of unexecuted cells and renamings of cells, with host counters ahead of the kernel's", "why_tests_cant": "The lookup table and the fields of the cell objects are updated in four different functions; only an invariant over all histories relates them.", "anchors": ["core/ipyflow/data_model/cell.py:Cell.mark_as_reactive_for_tag", "core/ipyflow/data_model/cell.py:Cell.get_reactive_ids_for_tag", "core/ipyflow/data_model/cell.py:Cell.create_and_track", "core/ipyflow/data_model/cell.py:Cell.update_id"]}
{"id": "C188", "title": "Running a slice runs that slice only, and has no effect on later runs", "statement": "Running the forward or backward slice of a cell runs the cells of the slice; cells that would be forced to run by names marked with $ are not run after it. After anything else the user runs, they are run, however many slices were run before and in whichever mode.", "quantifier": "every history of runs, slices and answers of the kernel, in every mode, with any kinds of cells, any forced, cascading and ready cells, any dependencies and any execution counts", "why_tests_cant": "The client counts slices and discards forced cells while the count is not zero; whether the count returns to zero depends on modes, kinds of cells and overlapping runs, none of which tests of the client vary.", "anchors": ["frontend/labextension/src/index.ts:executeSlice", "frontend/labextension/src/index.ts:connectToComm", "frontend/labextension/src/store.ts:IpyflowSessionState.bumpForcedReactiveCounter", "frontend/labextension/src/store.ts:IpyflowSessionState.executeCells"]}
{"id": "C189", "title": "The command that runs what is stale runs the cells edited since they were run", "statement": "When no cell is ready, the command that runs stale cells runs exactly the cells that have been run and whose text is another one now, whenever the notebook has come to rest, and however edits, runs and connections to kernels were interleaved before.", "quantifier": "every history of edits, runs, moments of rest and new connections in a notebook with any number of cells", "why_tests_cant": "Edits are noticed half a second late, and only if the texts differ from those noticed before; which interleavings of edits and runs this gets wrong is a question about all histories.", "anchors": ["frontend/labextension/src/index.ts:connectToComm", "frontend/labextension/src/index.ts:extension", "frontend/labextension/src/store.ts:IpyflowSessionState"]}
{"id": "C190", "title": "Calls of a function are attributed to the definition that made it", "statement": "When a function that was defined in a cell is called later, ipyflow takes the call to be in the statement that defines the function, and gives the run that defined it as the position to watchpoints, whatever was run or skipped in between. It holds where the code of each run gets its own name (terminal IPython). Where the name depends on the text only (notebooks), it fails once a cell with the text was skipped because its result was memoized or because of an out-of-order warning: then calls of its functions are not followed at all, or are taken to be in the statement that was run in place of the cell; and the position is always the last run of the text, in whatever cell.", "quantifier": "for all texts of cells, all sequences of runs and skipped runs, and all functions defined in any of them", "why_tests_cant": "It needs a memoized cell that defines a function, a rerun with a hit, and a later call of the function in the kernel of a notebook; tests run in the terminal shell, in which the names have the numbers of the runs.", "anchors": ["core/ipyflow/flow.py:493-511", "core/ipyflow/data_model/cell.py:607-647", "core/ipyflow/shell/interactiveshell.py:269-272", "core/ipyflow/tracing/ipyflow_tracer.py:1689-1742"]}
{"id": "C191", "title": "Usages of several runs of the same cell are reported", "statement": "With the setting that marks usages of phantom cells on, the check of the notebook reports for every cell exactly those cells of which it uses values set by two or more different runs, with these runs. What is computed per cell is right for other cells than the cell itself as long as all used symbols were set by runs. But the cell itself is reported with the number of the last run of the notebook, which may be another cell's; a used symbol that no run has set makes the check of all cells fail; and what is computed never reaches the answer.", "quantifier": "for all sequences of runs, all sets of checked cells and all sets of runs they use", "why_tests_cant": "No test switches the setting on, and the dictionary that is computed is dropped, so no test of the answer sees it; the failure needs a live symbol without a time.", "anchors": ["core/ipyflow/data_model/cell.py:867-878", "core/ipyflow/frontend.py:450-455", "core/ipyflow/frontend.py:590-639"]}
{"id": "C192", "title": "The attribute of an object depends on the attribute of the class that its value comes from", "statement": "If the value of `o.a` comes from the attribute `a` of a class, the class of `o` or one that it inherits from, then what reads `o.a` depends on the attribute of that class, so that assigning it makes the reader outdated; and if the object has the attribute itself, `o.a` depends on the attribute of no class.", "quantifier": "for all classes with any lists of further classes that Python searches, all objects and attributes, and all histories of assignments to attributes of classes and of objects, traced or not, reads and deletions", "why_tests_cant": "Tests read an attribute of the object's own class; what is recorded for inherited attributes, and for attributes that were assigned before or after they were read, depends on the whole history.", "anchors": ["core/ipyflow/data_model/namespace.py:209-215", "core/ipyflow/data_model/namespace.py:252-281", "core/ipyflow/data_model/scope.py:367-440", "core/ipyflow/tracing/ipyflow_tracer.py:777-815"]}
{"id": "C193", "title": "Reusing a memoized run leaves what running the cell left", "statement": "When the result of an earlier run of a memoized cell is reused instead of running the cell, every variable that the earlier run assigned has afterwards the value that this run gave it and counts as updated by the present run; no other variable changes.", "quantifier": "for all histories of runs of memoized and ordinary cells, all variables, objects and changes of objects in place", "why_tests_cant": "Tests reuse results of numbers right after they were computed; whether an object that was kept still holds what the cell computed depends on everything that was run in between.", "anchors": ["core/ipyflow/shell/interactiveshell.py:495-533", "core/ipyflow/data_model/cell.py:319-360", "core/ipyflow/data_model/cell.py:568-605"]}
{"id": "C194", "title": "The range reported for an out-of-order use marks the use", "statement": "For each use of a variable out of order that the kernel reports to the client, the range that is reported with it starts at the first character of the use and ends right after its last one, in the lines and characters of editors.", "quantifier": "for all texts, places and characters", "why_tests_cant": "Tests compare the ranges of a few names in lines of ASCII with numbers that were printed by the same code; characters outside ASCII are in none of them.", "anchors": ["core/ipyflow/frontend.py:29-39", "core/ipyflow/frontend.py:504-523"]}
{"id": "C195", "title": "An element that was not seen being assigned counts as changed when its object was", "statement": "If an element or attribute that ipyflow has not seen being assigned is read for the first time, it counts as last changed by the run that made the object or last changed it as a whole, neither earlier (or dependents would be missed) nor later (or cells that have nothing to do with the element would be taken for what it comes from).", "quantifier": "for all histories of an object: variables bound to it and taken away, stores to other elements, changes as a whole, and reads", "why_tests_cant": "Tests read elements right after the object is made; which version an element gets later depends on all stores to other elements and all other names of the object.", "anchors": ["core/ipyflow/data_model/symbol.py:206-222", "core/ipyflow/data_model/symbol.py:315-322"]}
{"id": "C196", "title": "Switches understand on and off and nothing else", "statement": "The commands %flow trace_messages, %flow highlights and %flow syntax_transforms take one word: on, enable and enabled switch the thing on, off, disable and disabled switch it off, in upper or lower case, no other setting is touched, and a word that is not offered changes nothing.", "quantifier": "For all words and all settings.", "why_tests_cant": "The tests use a few of the words in lower case; they cannot show that no other word has an effect.", "anchors": ["core/ipyflow/line_magics.py:86-157", "core/ipyflow/line_magics.py:279-310"]}
{"id": "C197", "title": "The line that makes a cell memoized is understood", "statement": "A cell is memoized exactly if its first line is the magic %%memoize; it then runs the code below that line, and reuses results quietly with -q or --quiet, showing the earlier output with -v or --verbose, and with a note otherwise. Whatever other words stand in the line, and whatever other magic a cell begins with, the cell can be run.", "quantifier": "For all texts of cells: any words in the line, any code below it.", "why_tests_cant": "The tests use the plain line and the two options; other magics, apostrophes in the line and other options are not tried.", "anchors": ["core/ipyflow/data_model/cell.py:534-555", "core/ipyflow/memoization/__init__.py:14-26"]}
{"id": "C198", "title": "Commands that ask about a variable answer about that variable", "statement": "The commands %flow deps and %flow code, given a variable, attribute or element, answer about exactly that, and warn if nothing is known of it or the text is no such thing; they never answer about something else and never fail.", "quantifier": "For all texts given to the commands, and all tables of variables, attributes and elements.", "why_tests_cant": "The tests ask about variables and elements that are known; what happens with unknown ones, with expressions between brackets and with equal names of attributes and elements depends on all the tables.", "anchors": ["core/ipyflow/line_magics.py:212-256", "core/ipyflow/analysis/symbol_ref.py:163-310", "core/ipyflow/analysis/symbol_ref.py:341-387", "core/ipyflow/data_model/scope.py:150-175", "core/ipyflow/data_model/namespace.py:252-267"]}
{"id": "C199", "title": "The command that lists waiting variables lists exactly those", "statement": "%flow show_waiting, alone or with the word global, names exactly the variables of the notebook that wait for newer dependencies, each once, or says that there are none; with the word all it names exactly the variables, attributes and elements that wait and can be written down; whatever else is written on the line is refused with the usage; and the command always answers.", "quantifier": "For all notebooks, all sets of tracked symbols under any number of objects, all judgements of waiting and all lines.", "why_tests_cant": "The tests call the command without words on notebooks with at most one variable waiting; they never use all, other words, or symbols without names.", "anchors": ["core/ipyflow/line_magics.py:258-279", "core/ipyflow/data_model/symbol.py:539-546", "core/ipyflow/data_model/namespace.py:148-156", "core/ipyflow/data_model/scope.py:125-126"]}
