# Design

Subject: `ipyflow/ipyflow` at the commit in `/repo`. The source is read as text only; nothing is run.
The model is in Lean 4 (4.33.0) with Mathlib, under `lean/Verif/`. One directory per area, each with

* `Model.lean`  – the functions of `/repo`, one Lean function per Python (or TypeScript) function, each with a
  comment citing file and lines;
* `Spec.lean`   – the specification vocabulary (reachability, list semantics, paths through programs, ...), written
  without the helpers of the model; in small areas it stands at the top of the `Props` file;
* `Lemmas.lean` – helper lemmas (no property is claimed here);
* `Props.lean` and others – the property theorems, each followed by an `example` giving a concrete non-trivial case which
  meets its hypotheses.

## Trusted base

* The Lean 4.33.0 kernel, and the axioms `propext`, `Classical.choice`, `Quot.sound` at most; which theorem depends on which is
  listed at the end. No other axioms, no `sorry`, no `native_decide`/`bv_decide`.
* The reading of `/repo` that produced the `Model` files. No extraction from Python or TypeScript exists, so faithfulness is by
  inspection; each definition cites the lines it models and says where it simplifies.
* Python semantics assumed: `dict` keeps insertion order; a `set` is a finite set with an unspecified iteration
  order (theorems quantify over that order where it matters); `sorted` is stable; an exception leaves all
  mutations made before it in place.
* JavaScript semantics assumed: `Set` and `Map` keep insertion order; `sort` with an inconsistent comparison may return any permutation.
* Not modelled anywhere: tracing/instrumentation by `pyccolo`, the IPython host, the Jupyter transport, `black`, and user code itself (user code
  appears only as an arbitrary sequence of events, or as a syntax tree with a set of paths).

## Conventions

* Exceptions are values (`Except`, `Option` or an explicit outcome type). No `head!`/`getD` on paths a theorem
  talks about unless Python itself uses a default there.
* Recursion of unknown depth takes fuel; running out of it is the separate outcome `Err.fuel`, never confused with a result. Where a
  theorem says that a traversal ends, it gives a bound on the fuel in terms of the size of the input. Python's limit on the depth of
  recursion is not modelled.
* Where the code violates a property, the negation is proved on a concrete witness (`..._violated` and the like), and the largest
  true part found is proved under a name that ends in `_partial`. The statement of the property stays as it is.
* Theorems are tried against wrong programs: see `seeded/LOG.jsonl`.

## What is modelled, and what is left out

| area | modelled (under `core/ipyflow/` unless said otherwise) | simplified or left out |
|---|---|---|
| `Sched` (C01–C10, C54–C56, C180–C182) | `frontend.py`: `compute_frontend_checker_result`, `_check_one_cell`, `_compute_readiness`, `_compute_dag_based_waiters`, `_compute_waiter_and_ready_maker_links`, `_compute_ready_making_cells`, `_compute_filtered_parents`, `_compute_stale_parent_makers`, `to_json` | the outcome of checking one cell (live symbols, type checks) is an input; `is_waiting` is asked without a minimal timestamp |
| `Edges` (C11, C12, C57, C58) | `slicing/mixin.py` 300-357, `data_model/cell.py` 402-405, `flow.py` 596-610 | one slicing context at a time; ids are registered |
| `Slice` (C13–C19) | `slicing/mixin.py` 54-83, 390-553 | edge tables arbitrary; formatting by `black` |
| `Registry` (C20–C22, C42) | `data_model/cell.py` 75-84, 175-186, 258-293, 362-437, 458-532; `line_magics.py` 363-380 | contents of cells |
| `ListNs` (C23, C24, C59) | `data_model/namespace.py` 240-250, 287-328; `tracing/external_calls/list_handlers.py` 46-91 | what renamed symbols do besides |
| `Memo` (C25, C26, C193) | `data_model/cell.py` 319-360, 568-605; `shell/interactiveshell.py` 495-533, 625-645; `data_model/symbol.py` 1446-1568 | functions, classes, widgets, frames, numpy scalars, not-a-number |
| `Sym` (C27–C30, C60) | `data_model/symbol.py` 118-200, 663-791, 1019-1133; `data_model/scope.py` 282-450; `flow.py` 630-648 | timestamps, waiting flags |
| `Propagate` (C31–C33, C61) | `data_model/utils/update_protocol.py` | cell counters and timestamps of namespaces |
| `Live` (C34–C36, C62, C63) | `analysis/live_refs.py` 54-467, 577-660; `analysis/symbol_ref.py` 152-318 | a fragment of the syntax, see `Live/Model.lean`; reads inside functions defined elsewhere are in `Work`, where the contribution of one body is a parameter |
| `Comm` (C37–C40, C64, C65) | `comm_manager.py`; `utils/misc_utils.py` 26-47; `data_model/symbol.py` 64-83, 1223-1227; `data_model/cell.py` 243-276 | what handlers do besides answering; the events of `debounce` are atomic; ids given by the kernel and by the client are disjoint; two cells at one position |
| `Settings` (C41, C66, C196) | `line_magics.py` 81-208, 279-310, 399-470; `config.py` 9-12, 84-106; `flow.py` 530-537 | `lower` for ASCII; effects besides settings |
| `Interrupt` (C43) | `tracing/interrupt_tracer.py` 22-60 | that the instrumentation replaces the type of handlers is assumed |
| `Literal` (C44, C67, C68) | `tracing/utils.py` 15-37; `tracing/ipyflow_tracer.py` 1308-1346; `data_model/statement.py` 425-523 | starred targets are names |
| `Lift` (C45) | `api/lift.py` 50-115 | which symbol an argument denotes |
| `Dag` (C46, C69–C71) | `experimental/dag.py` 10-90; `data_model/symbol.py` 224-295, 454-537, 1240-1354; `data_model/statement.py` 611-648 | types of symbols; top-level symbols and aliases are parameters |
| `Scoped` (C47, C72) | `data_model/timestamp.py` 70-84; `slicing/context.py` 25-57; `flow.py` 417-425; `data_model/cell.py` 458-469 | entering and leaving a scope are atomic; unfinished generators are closed at once |
| `Clock` (C48, C73) | `data_model/timestamp.py`; `data_model/cell.py` 373-386; `utils/ipython_utils.py` 20-26, 72-75 | how IPython counts runs is taken from IPython; that no timestamp is taken between the start of a run and the reset of the tracer is a hypothesis |
| `Store` (C49, C50, C74–C77) | `frontend/labextension/src/store.ts` 152-335 | tables are taken to be consistent where a theorem says so (`Consistent`) |
| `Client` (C78–C80) | `frontend/labextension/src/index.ts` 807-1003 | highlights and user interface; `numAltModeExecutes`; cells deferred by the user are abstract |
| `Lookup` (C52, C53, C81) | `data_model/scope.py` 93-196; `data_model/namespace.py` 234-281 | scopes and classes are trees |
| `Output` (C51, C82) | `tracing/output_recorder.py`; `shell/interactiveshell.py` 246-275, 330-362, 410-413, 646-673 | `tracer.reset()` runs `__init__` again, `init_module` is raised when the code of a cell begins (pyccolo); the limit on the size of kept output |
| `Ref` (C83, C84, C85, C86) | `analysis/symbol_ref.py` 32-413, 428-540; `analysis/resolved_symbols.py` 78-105 | names are numbers; constants used as subscripts are text, numbers and tuples of these; the marks that the visitor reads from the reactive modifiers are given; the symbols of a chain come from the lookup of `Lookup` |
| `Wait` (C87, C88) | `data_model/symbol.py` 224-230, 271-274, 414-416, 936-998 | of timestamps only the counter of the execution; that each execution mentioned is on record is a hypothesis (`Registered`) |
| `Age` (C89–C92) | `data_model/symbol.py` 294-321, 711-758, 792-794, 1080-1110, 1344-1403; `data_model/utils/update_protocol.py` 23-63, 92-131 | the namespaces themselves do not change during an update (transfer of symbols to a new namespace is left out); which symbols wait is given |
| `Ready` (C93, C94) | `data_model/cell.py` 176-186, 295-297, 704-775, 848-855; `frontend.py` 205-226, 386-402 | reads and their versions are given (`Ref`, `Age`); widget overrides and reloaded modules are in the model but excluded in the theorems |
| `Rval` (C95, C96) | `tracing/symbol_resolver.py` 24-293; `tracing/ipyflow_tracer.py` 500-508, 619-634 | what the tracer records for nodes, and the static resolution used when nothing is found, are given |
| `Annot` (C97-C99) | `annotations/compiler.py` 33-237, 287-315, 339-358; `tracing/external_calls/__init__.py` (choice of the handler) | strings of conditional stubs, handlers given by name and the matchers of `annotations.py` are not covered; names are numbers |
| `Bind` (C100-C102) | `analysis/symbol_edges.py` 15-113, `analysis/utils.py` 10-48, `data_model/statement.py` 424-438, 525-667, 700-710, `tracing/symbol_resolver.py` 77-268 (which variables are looked at), `tracing/ipyflow_tracer.py` 500-617 | stores to attributes and elements are found; comprehensions have no targets; tuples are unpacked from unknown values; static resolution as a fallback is left out |
| `Steps` (C103, C104) | `tracing/ipyflow_tracer.py` 357-398, 850-865, 1501-1606, `data_model/statement.py` 717-736, `analysis/live_refs.py` 146-253, 313-340 (variables assigned) | one frame: calls of functions of the notebook are not followed; the events emitted by pyccolo are part of the specification; the effects of a statement are the variables it binds |
| `Frames` (C105, C106) | `tracing/ipyflow_tracer.py` 333-355, 385-483, 860-865, 1267-1270, 1504-1509, 1602-1663, 1727-1769 | no generators; frames of libraries are not traced; per frame only its identity, depth and pending call; the result goes to the call itself; `TraceStack.get_field` of pyccolo as its uses require |
| `Args` (C107, C108) | `data_model/symbol.py` 819-878, 909-934; `data_model/statement.py` 290-303; `tracing/ipyflow_tracer.py` 501-508, 618-634 | expressions are names, nodes with noted symbols, constants and compounds; `_get_calling_ast_node` is an optional call; the scope of a call is an association list |
| `Writes` (C109) | `data_model/scope.py` 343-366; `data_model/cell.py` 120-123; `tracing/ipyflow_tracer.py` 1528-1530 | sets are lists; whether a write is static is given |
| `Target` (C110) | `tracing/ipyflow_tracer.py` 510-542, 609-614; `data_model/scope.py` 92-100, 128-134 | one name, one activation of each function; symbols given by their values |
| `Types` (C111) | `data_model/utils/annotation_utils.py` 14-128; `data_model/symbol.py` 600-601 | values are finite trees; objects of other classes are given by the class; sets of types are listed in the order of what is shown for them |
| `Resync` (C112) | `data_model/symbol.py` 735-758, 792-794, 1404-1444; `shell/interactiveshell.py` 682-693; `flow.py` 592-594, 616-618 | objects are numbers that are not reused; namespaces of objects are not moved |
| `Rebind` (C113) | what becomes of the recorded parts of an object when the variable it is called after gets another one: `update_obj_ref`, `transfer_symbols_to`, `fresh_copy`, `_handle_aliases`, `retrieve_namespace_attr_or_sub` | the parts moved have no recorded parts of their own; widgets and type checks left out |
| `Extern` (C114) | calls of library code without annotations and of methods of built-in containers: `resolve_external_call`, `StandardMutation`, `mutate_caller`, `ArgMutate`, `NamespaceClear`, `ListMethod`, `annotations/builtins.pyi` | classes as listed in `Kind`; what a recorded change leads to is in other areas |
| `Chain` (C115) | `attrsub_tracer`, `after_complex_symbol`, `_clear_info_and_maybe_lookup_or_create_complex_symbol`, creation of namespaces in `_get_namespace_for_obj`, the state of a chain in `before_call`, lookups in `namespace.py` | namespaces are identified with their objects; names and parents of namespaces, module symbols, arguments and bodies of called functions, and `defaultdict` are left out; `update_obj_ref` changes the object only; the order of events is that of `test_trace_events.py` |
| `Place` (C116) | Assignments to parts of objects: which object is taken for the stored one, in which namespace and under which index it is recorded, what it depends on, and what becomes of the parents of namespaces (`resolve_store_data_for_target`, `get_earliest_ancestor_containing`, `_upsert_symbol_for_name_inner`, the namespaces in `update_obj_ref`, the part of `update_deps` that sets dependencies) | Namespaces are their objects, names of namespaces are parts and paths are lists of them; the transfer of recorded parts is one level deep; aliases, marks for unused namespaces, anonymous namespaces, data frame columns, timestamps and the symbols that stand for mutations are left out; that `+=` announces no right side is taken from `core/test/test_trace_events.py` |
| `Garbage` (C117) | What becomes of symbols and namespaces when names are deleted or get other objects: marking, collection, `del`, references of the tracker to objects (`mark_garbage`, `collect_self_garbage`, the end of `update_obj_ref`, `delete_symbol_for_name`, `gc`) | The recursion of marking is a list of symbols that remain to be marked, in the order of the calls; variables and parts are kept in one kind of table, names of attributes and elements are not told apart except when they are deleted; anonymous symbols, numpy arrays, transfer of parts, renumbering of lists and dependencies are left out; Python's limit of recursion is not modelled |
| `React` (C118) | `_handle_reactive_store` (statement.py 305-340), the timestamps and sets of reactive symbols in `update_deps`, `refresh` and `UpdateProtocol` (symbol.py 374-404, 502-505, 1043-1110, 1343-1402, update_protocol.py 91-133), `ResolvedSymbol` (resolved_symbols.py 58-127), `LiveSymbolRef.gen_resolved_symbols` (symbol_ref.py 520-540), the tests for cells that must run again (cell.py 729-741, frontend.py 212-226), and when the sets are cleared (flow.py 560-562, comm_manager.py 361-366) | Symbols are paths: no aliases, and a new object takes over the symbols of the parts of the old one. Assigned values always differ. No calls in chains, no notebook positions (see Ready for those), one name per mark |
| `Pending` (C119) | calls of library code in a frame: `before_call`, `argument`, `_resolve_external_call`, `after_call`, `after_for_iter`, `before_stmt`, `after_stmt`, `after_stmt_reset_hook`, `_try_reenable_tracing` | one frame, the first run of its statements; events of pyccolo in evaluation order; values stand for objects with their symbols; what a function called does is its result and whether tracing is off when it is left |
| `Fails` (C120) | `is_unsafe`, `is_deep`, `is_mutating` of resolved symbols, `gen_symbols_for_attrsub_chain`, `allow_unsafe`, up to readiness | symbols given by their way; marks of reactivity and killed references left out; objects are lists, dicts or other things with attributes and items |
| `Session` (C121/C122) | run commands, alternate-mode execution, slice commands, counters of runs under way and of alternate-mode runs, toggling of the execution mode; `frontend/labextension/src/index.ts` 77-179, 260-338, 787-806, 981-1002, `store.ts` 74-150 | one session and one kernel called `ipyflow`; cells are not told apart: what the groups of cells contain is the subject of Store and Client; settings known from the beginning; failures of requests left out |
| `Connect` (C123) | the run commands over several notebooks, connections, loading and unloading, the list of put-off cells; `frontend/labextension/src/index.ts` 35, 238-303, 340-432, 787-801, 874-882, `store.ts` 90-122, 270-280, 350-364 | one cell is run at a time; dependents, counters and the debouncing of messages left out; each notebook has its own kernel |
| `Lambda` (C124) | `uninstrument` and the copy that is made of a function, the replacement of lambdas among the arguments of library functions | one parameter, bodies are expressions; no decorators; one definition for each function; nested functions are not part of bodies; the depth of recursion of `uninstrument` is a parameter |
| `Funct` (C125) | `Slice.to_function`: where `return` is put, which names become parameters, how they get their defaults, and calls of the function | assignments and expressions only; text in quotes over several lines, which is indented with the code, is left out |
| `Copy` (C126) | the page that shows a slice: escaping of the text for the copy links and what a browser makes of it | a few character references; no attributes with quotes in tags; without formatting by `black` |
| `Content` (C127, C128) | `onContentChanged` (index.ts 466-482), `gatherCellMetadataAndContent` and `requestComputeExecSchedule` (store.ts 61-80), `_recompute_ast_for_cells` and `_handle_notify_content_changed_impl` (comm_manager.py 228-345), `cells_to_check` (172-178), creating cells (flow.py 523-528, cell.py 87-120), adding `static_writes` to a result (cell.py 844-849), the filters of links by `static_removed_symbols` and `last_check_result` (frontend.py 531-553) | what a check finds depends on the code alone; no placeholder ids; messages are handled in the order sent; the other filters of links are in `Sched` |
| `Widget` (C129, C130) | `_observe_widget`, `_handle_possible_widget_creation`, `shallow_timestamp`, `update_usage_info`, `refresh` (symbol.py 297-302, 1157-1173, 1186-1221, 1240-1300, 1353-1372) for the value of a widget; `create_and_track` with `override` (statement.py 117-155); `add_data_dep` (flow.py 427-451), `add_parent_edges`, `_make_slice_helper` (slicing/mixin.py 293-311, 421-452); `num_original_stmts`, `get_max_used_live_symbol_cell_counter` (cell.py 681-686, 704-760); end of `_compute_readiness` (frontend.py 391-401) | code is made of three kinds of statements; one name per widget; what Python makes of other texts than numbers, single words, two words and blanks is a parameter; traitlets is trusted to tell observers after the value changed and to pass their exceptions on; no containers of widgets, static slices or debouncing |
| `Listen` (C131) | beginning of `update_obj_ref` (symbol.py 710-716), end of `update_deps` (1131-1133) and `_handle_possible_widget_creation` (1157-1173) | top-level names only; the aliases of an object are the names bound to it; traitlets: `observe` adds a callback once, `unobserve_all` removes all |
| `Hold` (C132, C133) | `before_run_cell` (interactiveshell.py 555-623) and `_handle_output` (646-673) for out-of-order usages; `_safety_precheck_cell` (flow.py 564-581); check of positions (frontend.py 424-430); `create_and_track` (cell.py 362-416); `IPyflowCapturedIO.show` (output_recorder.py 81-94); end of `_compute_readiness` in in-order flow (frontend.py 391-401, cell.py 726-760) | a run is given by what it reads, sets, prints and results in; no aliases, containers or memoised cells; IPython: the display hook stores what it shows under the current execution count, which has been advanced when `_handle_output` runs |
| `Versions` (C134, C135) | symbol.py timestamps, snapshots of names and elements, _compute_namespace_timestamps, _get_timestamps_for_version, code; links between statements for names, elements and stores; slices with Slice.makeMultiSlice | one statement per cell, each run once; values are numbers and dictionaries of numbers with constant keys; a second name is a new name; static links are any links to earlier statements; no del, no calls, no nested containers |
| `Selfuse` (C136) | update_usage_info for variables and attributes, pending_usage_updates_by_sym and after_stmt_reset_hook, refresh, code; slices with Slice.makeMultiSlice | one statement per cell, each run once; values are numbers and objects with one name whose attributes are numbers; static links are any links that do not lead to later statements |
| `Calls` (C137) | the links made for the bodies of called functions (`tracing/ipyflow_tracer.py` 358-475, `statement.py` 717-733), the static links made before a cell is run (`analysis/live_refs.py` 359-384, 578-663), `code` for notebooks with several statements per cell | functions take no arguments, have one `return`, call no functions; right-hand sides are sums; no loops |
| `Watch` (C138) | watchpoints: which of them pass, when they are looked at, when the program stops | updates are lists of variables and values; assignments of the object that a variable already has are left out; predicates depend on the value only |
| `Loops` (C139) | statements with branches and loops: events that the tracer gets (`ipyflow_tracer.py` 850-865, 1501-1606), names resolved (`symbol_resolver.py` 77-233), comparison at the end of statements and cells (`symbol.py` 1404-1445, `interactiveshell.py` 675-700), static analysis of branches and loops (`live_refs.py` 146-221, 313-340), code of a variable | right-hand sides are sums, iterables are range(y), no else of loops, nothing raises, values compared instead of identities |
| `Text` (C140) | Text of statements: `Statement.text`, `_strip_tuple_parens`, texts put together into code, the guarded and the unguarded call of `black`; the unparsers of Python as surroundings | Tokens instead of characters; expressions are names, numbers, binary operators, unary minus, calls with positional arguments and tuples; statements are assignments and expressions; `black` raises exactly on what is not a program |
| `Parts` (C141) | `Cell._get_stmt_timestamps`, `compute_multi_slice_stmts`, `slice`, `code` (cell.py 926-978), `num_stmts` (661-686), `make_slice` (line_magics.py 318-356), `format_multi_slice` (mixin.py 482-530) | no tags, no memoized executions; nested statements not told apart from the outermost |
| `Shown` (C142) | `Cell.text`, `raw_cell`, `create_and_track`, `reproduce` (cell.py), `before_run_cell` (interactiveshell.py 522-623), `_recompute_ast_for_cells` (comm_manager.py 228-275), `_create_untracked_cells_for_content` (flow.py 522-528), `reproduce_cell` (api/cells.py) | counters agree with IPython; ids are not replaced; new code either parses or raises SyntaxError |
| `Inplace` (C143) | Names of sets and changes by `add`/`discard` through them, the times that all names and the symbol for the whole get, links by running and by static analysis, slices for `code` | One statement per cell, each run once; numbers and sets of numbers only; a further name must be new; tracing never switched off |
| `Hide` (C144) | The loop that unlinks frames from tracebacks, `showtraceback` | Names from `pyccolo` are parameters; how `IPython` walks along tracebacks and that it leaves out its own first frame is assumed |
| `Paint` (C145 C146) | marks on the cells of notebooks in the JupyterLab client: `updateUI`, `updateOneCellUI`, `onExecution`, `onActiveCellChange`, `onSelectionChanged`, the handler of schedules as far as it concerns marks (`index.ts` 485-501, 545-578, 595-769, 805-1002), `clearCellState` (`dom.ts` 90-98) | minimap and hover listeners left out; connections are established at once; which cells a schedule makes the client run is given; handlers that raise end the run |
| `Nest` (C147, C148) | How runs are numbered and what is recorded under the numbers when code is run inside cells (`%%capture`, `%rerun`, direct calls of `run_cell`): `_tracing_context`, `_ipyflow_run_cell`, `create_and_track`, `dataflow_tracing_disabled`, `add_data_dep`, `add_parent_edges`; the name recorded for `%%capture` | statements read and set whole variables; dynamic dependencies between cells only; no tags, memoization, or dangling symbols; what `IPython` counts is part of the model |
| `StubFile` (C149, C150) | `handle_string_annotation`, `register_annotations_from_source`, `register_annotations_file`, `register_annotations_directory`, `compile_functions`, the functions part of `compile_and_register_handlers_for_module`, `%flow register_annotations` (`annotations/compiler.py` 223-375, `line_magics.py` 545-555, `ipyflow_tracer.py` 820-821); `eval` of comparisons of `sys.version_info`, numbers and tuples of numbers | Parsing is part of the input: a string is given by its first character, what its first line parses to and its statements. No complex, infinite or `nan` numbers. Identity of objects (`is`) and the value of any other expression are parameters. Methods are in `Annot`. |
| `Hover` (C151, C152) | `dom.ts` 1-152 (bars, listeners, `clearCellState`, `addWaitingOutputInteractions`, `addUnsafeCellInteraction`) and the listeners of `updateOneCellUI` (`index.ts` 545-553, 581-593, 632-708, 737-746) | one notebook; `updateUI` does not raise; whether it is reached after a schedule is given; bars of input and output appear together; a removed element gets no `mouseout` |
| `Lint` (C153) | uses of symbols as noted with their times and places (`update_usage_info`), positions of cells and their removal (`set_cell_positions`, `position`), and the list of uses of values set further below (`_compute_unsafe_order_usages`) | Only top-level variables with atomic values; cells are lists of statements that read at places and then may set one variable, or raise if one is missing; variables are not deleted; the range made from a place and the blocking of symbols are left out. |
| `Tracers` (C154 C155) | registering and deregistering tracers, starting, switching and cleaning them up at the beginning and end of cells, `%flow on/off/syntax_transforms_only`, and the effect of attached debuggers: `line_magics.py` 197-206, 494-542, `interactiveshell.py` 56-64, 104-142, 244-322, 393-424, `kernel.py` 120-135 | what pyccolo does with instances of tracers is assumed; nested runs, tracers of the configuration, `StackFrameManager` and file filters of tracers are left out |
| `Around` (C156) | cell_above, cell_below and cell_at_offset (models.py 43-58), positions (cell.py 176-186, 419-432, 497-502, 518-520), what the client tells of its notebook (store.ts 61-72, comm_manager.py 281-327) | the JupyterLab client only; no overridden references, no placeholder ids |
| `Recall` (C157 C158) | last_run_cell (models.py 61-62), stdout and stderr (api/cells.py), numbers of runs (cell.py 364-416), _handle_output (interactiveshell.py 646-673) | no nested runs, no memoized cells; whether the recorder sees a run is given (Tracers) |
| `Declare` (C159) | declared reads and writes of cells: `_handle_notify_content_changed_impl` (comm_manager.py 278-345), `set_override_refs` (cell.py 446-456), `_create_untracked_cells_for_content` (flow.py 522-528), new cells (cell.py 111-112, 364-416), `_get_live_dead_modified_symbol_refs` (cell.py 778-808) | what the analysis of code says is one value; all runs are kept in the history of IPython; no placeholder ids; cells are not removed by the kernel |
| `Saved` (C160) | links saved in the notebook: `mergeMaps` (utils.ts 1-13), schedules (index.ts 803-822), `_initialize_cell_parents` and `initialize` (flow.py 236-371), `check_and_link_multiple_cells` (flow.py 547-558), edges (slicing/mixin.py 300-338, flow.py 427-447, 596-612), new cells (data_model/cell.py 364-431), with `_compute_filtered_parents` of the Sched area | a connection starts with a new kernel; the notebook has only code cells; symbols collected as garbage stay in edges; cells that are run are cells of the notebook as last told; no statements |
| `Imports` (C161, C162) | what import statements do to symbols: `_make_lval_symbols_old` (`statement.py` 599-700), `create_if_not_exists_module_symbol` (`ipyflow_tracer.py` 705-775), kinds of symbols (`scope.py` 195-229, 284-440), which symbols the exported graph gives as imports (`experimental/dag.py` 25-57) | statements at the top level, one per cell; modules are loaded before; failing imports do nothing; no `*`; links between symbols are not modelled |
| `Naming` (C163) | names of parts of objects: `readable_name`, `full_namespace_path`, `make_namespace_qualified_name`, names of namespaces of displays and their changes in `update_obj_ref` | variables hold lists and dictionaries made by displays, which are not changed; keys are natural numbers, words or digits; no starred items; which alias comes first is arbitrary |
| `Checked` (C164) | the verdict of the type checker that is kept with each cell: when it is made, when it is dropped, and which cells are marked; which requests fail because a cell was never run | a text is a number that comes with the variables it reads; no functions of other cells are called; no declared references; every text parses; the type checker is any function; marks are given apart from the cells that wait for other reasons |
| `Tagged` (C165) | the tags of cells (from the notebook, `%flow tag`, `--remove`, `--cell`), the marks of cells that show the slice of a tag (`%flow slice --tag $t`), their transfer at runs and changes of ids, and the cells listed to be run again because of them | the counter of the kernel is taken to be the one of IPython; `$t` is not expanded by IPython; cells listed for other reasons (reactive symbols) and what the client does with the list are left out; the slice itself is not computed |
| `Assigned` (C166, C167) | the variables that texts are found to assign (`modified` of `analysis/live_refs.py`), which assignments of a run count as made by the text (`_compute_is_static_write`) and the rule that hides links after edits | texts are trees of statements with expressions reduced to the names in them, the first names of chains, `:=` and lambdas; comprehensions, calls of functions defined in the same text, `match` and the comparison of objects in any-order mode are left out; the parts of values are left out |
| `Told` (C168, C169) | requests that tell of variables, refresh them, or ask for the cell that updated them last | objects have no parts; times are numbers of runs; texts are not edited after runs |
| `Matchers` (C170, C171) | the matchers that annotations are written with | absolute paths are a function of names; the order of sets is any function |
| `Loading` (C172, C173) | `load_ipython_extension` and `unload_ipython_extension` of the package and of the shell, `inject`, `_maybe_eject` and `_initialize` (as for tracers) of shell and kernel, the ends of `run_cell_async` and `do_execute`, `register_tracer` | IPython's own `load_extension`, `unload_extension`, `reload_extension`, `run_cell` and `do_execute` are not part of the repository and are taken to do what they are documented to do. Code of cells is a sequence of commands; conditions and loops are not modelled, as the sequence that is carried out is arbitrary. The counter of cells, comm targets and patches of asyncio are left out. |
| `Lifted` (C174) | which symbol an argument of `lift`, `code`, `deps`, `users`, `timestamp`, ... is exchanged for: `handle_lift_argument`, `resolve_rval_symbols` without recording of uses, static resolution of references | comprehensions, lambdas, starred arguments and names of the quasi-quoter left out; what the tracer recorded for subscripts, and what the analysis of called functions finds, are given |
| `Implicit` (C175) | to which node the tracer attaches what a `return` reads, for functions that run without being called in the text (`_handle_return_transition`, `_save_node_id`, counting of arguments), and how `ResolveRvalSymbols` takes it up again | one frame; functions have one `return`, whose reads are given; no displays, lambdas, comprehensions, starred arguments; symbols of chains are given |
| `Redirect` (C176) | where the answer of a `%flow` command goes: `_flow_magic` and the order of the cases of `_handle` (line_magics.py 81-184), with which commands give a text back, print one or neither | what the commands compute is a parameter; warnings are counted; `\w` is ASCII; files do not change while the command runs |
| `Failing` (C177) | what the client is told about runs that fail: `_ipyflow_run_cell` as far as exceptions go (interactiveshell.py 364-460, 702), the flag and the counter (flow.py 477-491), the rewriter (flow_ast_rewriter.py 27-50), debounced schedules (symbol.py 64-83), with the step of the client of `Verif.Client` | IPython gives back what a cell raises and catches what transformers raise; exceptions that are no `Exception` and unloading are left out |
| `Callee` (C178) | The scope in which the names of a running function are looked up: the scopes of variables that are functions, their copying from variable to variable, the variable of the last call, the statement as a fallback, and the ends of statements that forget the variable. | Scopes of calls are known by their parents; whether the scope of an earlier call is used again is in Args; tracing stays enabled; class bodies are left out. |
| `Resume` (C179) | Generators: the call events of resumed generators, the scope they are given, where their assignments and reads are recorded, and when tracing is turned off for them. | Functions are defined outside of functions; no call written with a function of the notebook is under way when a generator is resumed; the def and its yields stand on different lines; tracing that is turned off for a call is on again when it is over. |
| `Resend` (C183) | what the client sends after the channel to the kernel was closed: `safeSend`, the answer to an opened channel | messages are numbers; one connection; the kernel always answers |
| `Rounds` (C184) | cells that are run together and the request that follows: `executeCells`, the list of cells in lazy mode with batches | cells are numbers; what `CodeCell.execute` does to the promise of an earlier run is taken from JupyterLab |
| `Addons` (C185) | input_transformer_context and ast_transformer_context (ipython_utils.py 28-48, 60-69) and where they are entered (interactiveshell.py 224-238, 244-306, 372-388, 415-424), next to plain IPython as the specification | cells reach the lists through the shell only; IPython taking out a transformer that throws is left out; which runs are traced is given |
| `Embed` (C186) | embed (interactiveshellembed.py 20-103) on the table of instances of singleton classes, the classes of shells (terminalinteractiveshell.py, zmqshell.py, singletons.py 20-23, ipython_utils.py 105-116), loading and unloading of the extension as far as the table is concerned (interactiveshell.py 82-102) | traitlets and IPython are assumed to do what they document; both prompts are defined or none; configuration is left out |
| `Bumps` (C188) | The commands that run slices, the counter of pending bumps, and what the client runs because of forced, cascading and ready cells, `index.ts` 156-179, 805-1002, `store.ts` 90-151 | modes come with answers; only the number of outstanding requests is kept; cells that are both forced and cascading run once (see Rounds); deferred cells left out |
| `Dirty` (C189) | Which cells the client takes to be edited, `index.ts` 65-74, 411-416, 456-500, `store.ts` 29, 58, 355-359 | a run takes no time; no cells are added, removed or moved; JupyterLab marks a cell as dirty if it was run with another text |
| `Origin` (C190) | which run and which statement a call of a function of the notebook is mapped to: the name of the code of a run, the map from names to runs, the statements by line, what is run in place of a skipped cell | how IPython names code is a parameter (by text, by number), without collisions; statements are one line each; only traced runs; frames of sandboxes are left out |
| `Phantom` (C191) | compute_phantom_cell_info, its use in the check of the cells, and the field of the answer | of the check of a cell only used_cells is there; the rest of the check is taken not to fail |
| `Inherit` (C192) | which attribute of a class the attribute of an object depends on: lookup through the class, load, store and deletion (`namespace.py` 252-281, `scope.py` 367-440, `ipyflow_tracer.py` 777-815) | all classes are traced; only dependencies on attributes of classes; classes lose no attributes, objects keep their class; no descriptors |
| `Span` (C194) | the range reported for a use out of order (`frontend.py` 29-39, 504-523) | the text is the one that is parsed; nodes have all four attributes |
| `Unseen` (C195) | the version of an element that is read before it was seen to be assigned (`_maybe_fix_implicitness`, `symbol.py` 206-222) | one object; its names are variables; what stores and changes do to versions as in `Age` |
| `Header` (C197) | `data_model/cell.py` 534-555; `memoization/__init__.py` 14-26, 50-53 | lines end at newlines only; `shlex` and `argparse` as far as used; mixed letters behind one dash as up to Python 3.11 |
| `Asked` (C198) | `line_magics.py` 212-229; `analysis/symbol_ref.py` 32-80, 163-310, 341-387, 442-453; `data_model/scope.py` 150-175; `data_model/namespace.py` 252-267 | no classes behind objects, no tuples or negative numbers as subscripts, global scope only |
| `Waiters` (C199) | `show_waiting`, `is_anonymous` of symbols and namespaces | the judgement of waiting is a function given from outside that may fail; the answer is the list of symbols, not its text; white space of a line is blank, tab and line ends |

Not modelled: `analysis/resolved_symbols.py` besides 78-105, `annotations/` besides what `Annot` uses, `kernel/`, the matching of
annotated functions, `data_model/statement.py` besides the parts above, `tracing/ipyflow_tracer.py` besides literals, the events of statements and the stack of calls, `models.py`, the nbextension client.

## Defects of the code

Where a property fails, the theorem that exhibits the failure is named in the table below, and its note says what goes wrong.


## Properties, status and theorems

Statements are in `properties.jsonl`; this table is generated from `MANIFEST.json`. Names are relative to `Verif`.

| id | title | status | theorems | note |
|---|---|---|---|---|
| C01 | A cell is never offered as ready and waiting at once | partial | `Sched.ready_waiting_disjoint`, `Sched.json_ready_waiting_violated` | Proved for the computed sets in every mode. The JSON sent to the client merges cells with type errors into the waiting list, so the client can see one cell as ready and waiting: proved counterexample. |
| C02 | DAG-based waiting cells are exactly the cells downstream of a stale cell | proved | `Sched.dag_waiting_exact`, `Sched.compute_terminates` |  |
| C03 | In-order scheduling never deadlocks | proved | `Sched.in_order_progress`, `Sched.any_order_deadlock_violated` | Proved for in-order semantics; the counterexample shows that without in-order semantics a dependency cycle blocks every cell. |
| C04 | In-order reactivity never runs backwards | proved | `Sched.new_ready_forward` |  |
| C05 | Waiter links are the exact transitive closure up to non-waiting cells | partial | `Sched.waiter_links_exact_partial`, `Sched.waiter_links_sound`, `Sched.waiter_links_only_waiting`, `Sched.waiter_links_violated`, `Sched.compute_terminates` | Exact when no waiting cell is its own maker; with self makers (liveness schedule, any order, a cell overwriting the stale symbol it reads) the loop stops early: proved counterexample. Soundness and termination hold always. |
| C06 | Ready-maker links mirror waiter links | proved | `Sched.ready_makers_inverse` |  |
| C07 | In-order ready makers lie above the waiting cell, and the cell just run is never one | proved | `Sched.ready_makers_above` |  |
| C08 | cell_children is the inverse of cell_parents and the in-order graph is acyclic | proved | `Sched.reported_graph`, `Sched.reported_graph_acyclic` |  |
| C09 | Parent selection by timestamp never fails and keeps the lowest parent | proved | `Sched.latest_parent_table`, `Sched.readiness_never_raises`, `Sched.reported_graph`, `Sched.compute_terminates` |  |
| C10 | The two stale-parent indexes are transposes of each other | proved | `Sched.stale_indexes_exact`, `Sched.stale_indexes_transpose` |  |
| C11 | Recorded parent edges always have a matching child edge | partial | `Edges.edges_symmetric_partial`, `Edges.edges_symmetric_violated` | Holds in every history whose self edges are recorded while the previous version of the cell is intact. The second check after a run (shell/interactiveshell.py 698) records self edges after the clean-up, and then the child entry is missing: proved counterexample. |
| C12 | No cell depends on itself and no two cells depend on each other in one context | partial | `Edges.no_self_parent`, `Edges.no_two_cycle_partial`, `Edges.two_cycle_violated` | Self edges never arise. Two-cycles are excluded under the same condition as C11; otherwise a proved counterexample. |
| C13 | Slices are dependency closed | proved | `Slice.slice_dependency_closed`, `Slice.slice_contains_latest_visible_version` |  |
| C14 | Slices contain nothing unnecessary | proved | `Slice.slice_minimal` |  |
| C15 | A slice never contains code from the future | proved | `Slice.slice_no_future`, `Slice.multi_slice_no_future` |  |
| C16 | Slices are returned in execution order without duplicates | proved | `Slice.slice_sorted_nodup` |  |
| C17 | Slicing several seeds is the union of slicing each | proved | `Slice.slice_union`, `Slice.slice_seed_order_irrelevant`, `Slice.slice_idempotent`, `Slice.slice_seed_only` |  |
| C18 | Slice text lists every sliced element once, in order, under its own cell | proved | `Slice.slice_blocks`, `Slice.slice_text_without_headers`, `Slice.slice_text_with_headers`, `Slice.blacken_keeps_blocks`, `Slice.slice_text_ends` |  |
| C19 | Slicing seeds skipped by memoization are redirected to the execution that produced the value | proved | `Slice.memoized_seeds_redirected` |  |
| C20 | Execution counters identify executions | partial | `Registry.exec_counters_partial`, `Registry.exec_counters_violated` | Holds for every history in which runs that take their number from the host find it ahead of the numbers given out. A run with store_history=False breaks this: proved counterexample with two executions under one counter. |
| C21 | Position index agrees with the notebook order sent by the client | partial | `Registry.Pos.at_position_exact`, `Registry.Pos.vanished_last`, `Registry.Pos.iterate_exact_partial`, `Registry.Pos.iterate_violated` | Lookup by position and the place of vanished cells hold in full. Iteration holds when all cells of the report were reported before and no check ran since; otherwise proved counterexamples. |
| C22 | Renaming a cell preserves the dependency graph | partial | `Registry.Ren.rename_graph_partial`, `Registry.Ren.rename_violated` | Holds for the enabled contexts, current versions, positions, reactive tags and the id lookup. Disabled contexts, older versions of neighbours and the index from positions to cells keep the old id: proved counterexamples. |
| C23 | Inserting into a list keeps per-element symbols attached to their elements | partial | `ListNs.insert_follows_partial`, `ListNs.insert_violated` | Holds for indices from 0 to the length and inserted objects with at most one name. Negative indices, indices beyond the end and objects with two names: proved counterexamples. |
| C24 | Deleting from a list keeps per-element symbols attached to their elements | partial | `ListNs.delete_follows_partial`, `ListNs.remove_follows`, `ListNs.remove_absent`, `ListNs.delete_violated` | remove(v) holds in full, del and pop hold for indices from -1 up as long as no symbol has a negative name. Other cases: proved counterexamples. |
| C25 | Memoized results are reused only when nothing the cell read has changed | partial | `Memo.memo_hit_partial`, `Memo.memo_violated` | Proved for symbols the reused run read and did not itself update, and that are no imports. Violated (memo_violated): symbols a cell both reads and updates are no inputs; imports are never compared; an object changed by an unmemoized cell; an array changed in place; a list against a tuple. |
| C26 | Value comparison for memoization distinguishes different values | partial | `Memo.comparable_sound_partial`, `Memo.comparable_sound_arrays_partial`, `Memo.comparable_violated`, `Memo.pyEq_set_iff`, `Memo.pyEq_dict_iff`, `Memo.pyEq_list_iff` | Proved for values whose lists, tuples and dictionaries stand against their own kind, and where arrays stand against arrays of the same length, in containers of the same lengths, and still hold what they held. Violated (comparable_violated): list against tuple, dictionary against list of pairs, zip truncation next to an array, broadcasting, arrays kept by reference; raises on sets of tuples and on dictionaries with unorderable keys. |
| C27 | Symbol dependency edges are mutual and irreflexive | proved | `Sym.edges_mutual` |  |
| C28 | Overwriting assignment replaces dependencies exactly | partial | `Sym.overwrite_partial`, `Sym.augment_exact`, `Sym.overwrite_violated` | The augmenting half is proved. An overwriting assignment keeps the old dependencies if the symbol occurs on the right-hand side or a right-hand side symbol depends on it directly: proved counterexamples. |
| C29 | Garbage collection leaves no reference to a collected symbol | partial | `Sym.gc_exact`, `Sym.gc_alias_partial`, `Sym.alias_violated` | Edges, scopes and surviving dependencies: proved. Alias entries: proved unless a mutation put members of another object into an alias set; counterexample proved. |
| C30 | The alias table knows exactly which symbols refer to an object | partial | `Sym.alias_complete`, `Sym.alias_exact_partial`, `Sym.alias_violated` | Every symbol is listed under its object, always. The converse fails after a mutation of a container whose columns and attributes share an object: proved counterexample; it holds otherwise. |
| C31 | Staleness propagation terminates on every graph, cyclic ones included | proved | `Propagate.propagation_terminates` | Recursion depth is bounded by twice the number of symbols; the depth limit of the Python interpreter is not modelled. |
| C32 | Staleness propagation never marks the right-hand side or what the statement itself updated | partial | `Propagate.marks_spare`, `Propagate.rhs_not_waiting_partial`, `Propagate.rhs_violated` | The mark itself is never set. A container on the right-hand side one of whose elements uses the updated symbol becomes stale through its namespace: proved counterexample; symbols whose object contains no symbols stay fresh. |
| C33 | Every user of a changed symbol is told | partial | `Propagate.users_told_partial`, `Propagate.users_violated`, `Propagate.marks_reachable`, `Propagate.updated_exact` | Holds if alias sets contain only symbols of their object (see C30); otherwise a proved counterexample. |
| C34 | Live-reference analysis is sound for straight-line and branching code | partial | `Live.live_sound_partial`, `Live.live_violated_chain_on_comparison`, `Live.live_violated_curried`, `Live.live_violated_fstring`, `Live.live_violated_conditional`, `Live.live_violated_comprehension_target`, `Live.live_violated_class_body`, `Live.live_violated_keyword_default`, `Live.live_violated_walrus_argument`, `Live.live_violated_del`, `Live.live_violated_quasiquotation`, `Live.live_violated_noop`, `Live.violated_walrus_in_and`, `Live.violated_lambda_default`, `Live.violated_tuple_target`, `Live.violated_annotation_only`, `Live.violated_try`, `Live.violated_loop_else`, `Live.violated_suppress` | Proved by structural induction for all code outside the constructs of the counterexamples, each of which is proved to make the analysis miss a variable. What happens inside called functions is C62 and C63. |
| C35 | Dead symbols are definitely assigned | partial | `Live.dead_sound_partial`, `Live.violated_walrus_in_and`, `Live.violated_lambda_default`, `Live.violated_tuple_target`, `Live.violated_annotation_only`, `Live.violated_try`, `Live.violated_loop_else`, `Live.violated_suppress` | As for C34; the counterexamples report a variable as assigned that a path does not assign. |
| C36 | Live-reference analysis terminates | partial | `Live.analysis_returns_partial`, `Live.analysis_violated_recursion`, `Live.analysis_violated_keyword_only`, `Live.Work.call_chain_terminates` | Following calls into other cells always ends. The visitor returns for all code without recursive functions and keyword-only parameters; a cell that defines and calls a recursive function, or one with keyword-only parameters, makes it fail: proved. |
| C37 | Every client request gets at most one well-formed response | partial | `Comm.responses_at_most_one`, `Comm.response_partial`, `Comm.unknown_no_response`, `Comm.register_keeps`, `Comm.response_violated_type`, `Comm.response_violated_dropped`, `Comm.response_violated_junk`, `Comm.response_violated_unserialisable`, `Comm.response_violated_interrupt` | At most one well-formed response: proved in full. Exactly one for handlers that return a serialisable dictionary or nothing or raise an Exception. Violated: the type of the answer to notify_content_changed is compute_exec_schedule; no answer for requests dropped while a recomputation is pending, for results that are no dictionaries or not serialisable, and for interrupts. |
| C38 | The active-cell marker is always cleared after a schedule request | partial | `Comm.active_cleared_partial`, `Comm.active_cleared_internal`, `Comm.active_violated_dropped` | For every request that reaches the handler, every failure point included. A request that is dropped because a delayed recomputation is pending leaves the marker: proved counterexample. |
| C39 | Debounced calls: the last call of a burst always fires, exactly once | partial | `Debounce.executions_exact`, `Debounce.burst_not_split`, `Debounce.burst_ends`, `Debounce.fire_enabled`, `Debounce.flag_sound`, `Debounce.flag_complete_partial`, `Debounce.flag_violated_running`, `Debounce.flag_violated_died` | Executions: proved for every interleaving. The result flag is right when true; a new burst that starts while the function runs, or after a run that raised, is reported as not new: proved counterexamples. |
| C40 | Placeholder cells receive distinct real ids with equal content | partial | `Comm.Placeholder.placeholder_ids`, `Comm.Placeholder.placeholder_exact`, `Comm.Placeholder.active_id_violated`, `Comm.Placeholder.assign_violated` | For content reports proved in full, with the exact assignment, under the assumption that ids made by the kernel and by the client differ. A schedule request however gives the active cell's id to the last placeholder even if it is known: proved counterexample. |
| C41 | An invalid setting value leaves settings unchanged | partial | `Settings.invalid_unchanged_partial`, `Settings.valid_sets`, `Settings.unknown_command_partial`, `Settings.invalid_violated_mode`, `Settings.invalid_violated_prefix`, `Settings.unknown_command_violated` | Holds for schedule, direction and reactivity values that do not begin like a recognised one. Every unrecognised mode, even the value printed by the usage message, sets the reactive mode; directions beginning with `in` or `any`, schedules beginning with `dag` and so on are accepted: proved counterexamples. |
| C42 | Tag lookups agree with cell tags | partial | `Registry.tag_lookup_complete`, `Registry.tag_lookup_exact_partial`, `Registry.tag_lookup_violated` | Current cells carrying a tag are always found. Nothing else is found as long as there is no untagging, renaming or tagging of older versions; each of the three has a proved counterexample. |
| C43 | A user interrupt cannot be swallowed forever | proved | `Interrupt.interrupt_exact`, `Interrupt.others_unchanged`, `Interrupt.invalid_unchanged`, `Interrupt.interrupts_bounded` | For every handler type set and every sequence of interrupts. How the tracing library wraps handlers is assumed. |
| C44 | Elements of literals with starred items are attributed to the right source element | partial | `Literal.literal_partial`, `Literal.literal_violated` | Holds if the starred expression gives at least one element or comes last. If it is empty and another element follows, that element is attributed to the starred expression: proved counterexample. |
| C45 | Transitive dependencies and transitive users are dual | proved | `Lift.rdeps_exact`, `Lift.rusers_exact`, `Lift.rdeps_rusers_dual`, `Lift.deps_users_dual`, `Lift.finite_symbols` | For every reachable symbol graph, cyclic ones included, and every pair of symbols that have not been garbage collected. Python's bound on the recursion depth is not modelled. |
| C46 | Exported DAG metadata is consistent | proved | `Dag.dag_mutual`, `Dag.dag_exact`, `Dag.dag_outputs`, `Dag.dag_raises_iff` | For arbitrary tables of symbols, versions and uses. The types of symbols are left out; which symbols are top level and which are aliases are parameters. |
| C47 | Scoped overrides are undone | partial | `Scoped.restored_partial`, `Scoped.restored_any_order`, `Scoped.index_violated` | Proved for every program with nested scopes and exceptions, against lexical scoping. Under in-order semantics the index from positions to cells is not restored: proved counterexample. |
| C48 | Timestamps order executions lexicographically | proved | `Clock.order_strict_total`, `Clock.cell_precedes`, `Clock.eq_other`, `Clock.max_exact` |  |
| C49 | Client-side closures are exact reachability | proved | `Store.closure_exact` | JavaScript's stack depth is fuel; two more than the number of cells is enough, on cyclic graphs too. |
| C50 | Client-side any-order execution respects dependencies | partial | `Store.any_order_partial`, `Store.any_order_violated` | Proved for requested code cells, with respect to the transitive closure of the graph. A Markdown cell among several requested cells makes the comparison NaN, and the order is left to the implementation of sort: proved. |
| C51 | Captured output equals displayed output | partial | `Output.displays_forwarded`, `Output.text_forwarded_partial`, `Output.restored_partial`, `Output.cell_output_partial`, `Output.assign_breaks`, `Output.assign_loses`, `Output.thread_violated`, `Output.nested_violated` | Forwarding of displays is proved in full. Forwarding of text is proved for programs that do not assign sys.stdout or sys.stderr; replacing sys.stdout alone makes every later write to sys.stderr recurse without end: proved. Recording and restoring are proved for runs that are not nested and for the main thread, with proved counterexamples otherwise. |
| C52 | Name lookup follows lexical scoping | partial | `Lookup.lookup_visible_partial`, `Lookup.lookup_class`, `Lookup.lookup_violated` | For code that is not directly in the body of a class. There only the body itself is searched, so that `class C: y = x` does not find x: proved counterexample. |
| C53 | Attribute and subscript chains resolve step by step | partial | `Lookup.chain_resolved_partial`, `Lookup.fully_iff`, `Lookup.chain_violated`, `Lookup.chain_violated_missing` | For links that no attribute and element of one name make ambiguous. Otherwise d['x'] resolves to d.x: proved counterexample. |
| C54 | Unsafe-order warnings are exact | proved | `Sched.unsafe_order_exact` |  |
| C55 | Slicing always terminates and raises only for a missing cell | proved | `Slice.slice_terminates_and_raises_iff` |  |
| C56 | The parents reported as stale are exact | proved | `Sched.stale_parents_exact` |  |
| C57 | A cell is listed as a child only by its recorded parents once its run is over | proved | `Edges.no_orphan_children` |  |
| C58 | Overriding a statement keeps the statement graph | proved | `Edges.stmt_override_renames` |  |
| C59 | Negative subscripts refer to the same element | partial | `ListNs.lookup_follows_partial`, `ListNs.negative_name_violated` | Holds as long as no symbol has a negative name; an assignment to lst[-1] creates one: proved counterexample. |
| C60 | Garbage collection keeps every live symbol reachable by its name | partial | `Sym.name_kept_partial`, `Sym.name_violated` | Holds if no garbage symbol of the scope has the same name; `x = 1; del x; x = 5` and a collection lose the live x: proved counterexample. |
| C61 | Which symbols become stale does not depend on registration order | partial | `Propagate.marks_exact_partial`, `Propagate.order_violated` | Without containers the marks after an update are characterised by reachability, hence independent of the order. With containers: proved counterexample. |
| C62 | Calling a function that the cell defines counts as reading what the function reads | partial | `Live.call_reports_partial` | For bodies of the same statement forms as C34. |
| C63 | Calls into functions of other cells are followed completely | proved | `Live.Work.call_chain_exact`, `Live.Work.call_chain_terminates` | What one body contributes is a parameter of the model. |
| C64 | Client requests are held back exactly while a delayed recomputation is outstanding | partial | `Debounce.held_back_partial`, `Debounce.outstanding_held_back_partial`, `Debounce.held_back_violated`, `Debounce.outstanding_violated` | Holds if the main thread sets the flag before the timer fires and no call arrives during a run. Otherwise proved counterexamples; in the first the client's schedule requests are dropped until the next delayed recomputation. |
| C65 | A delayed recomputation leaves the scheduling setting as the user chose it | partial | `Debounce.setting_restored_partial`, `Debounce.setting_violated`, `Debounce.setting_violated_user` | Holds if nothing happens during a run. Overlapping runs make the temporary setting permanent, and a choice of the user during a run is lost: proved counterexamples. |
| C66 | Incremental reactivity is never combined with a plain DAG schedule | partial | `Settings.compatible_partial`, `Settings.compatible_violated` | Holds for every command that does not select a schedule; selecting the DAG schedule afterwards is accepted: proved counterexample. |
| C67 | Targets of an unpacking assignment depend on exactly what they receive | partial | `Literal.unpack_partial`, `Literal.unpack_violated`, `Literal.unpack_violated_call`, `Literal.unpack_violated_unknown` | Holds for starred targets that receive something, elements that all have symbols, and expressions without calls for the starred target. Each exclusion is a proved counterexample. |
| C68 | Items of dictionary displays are attributed to the entry that gave their value | partial | `Literal.dict_partial`, `Literal.dict_violated` | Holds for displays with distinct keys and no `**`. With repeated keys, or with a `**` entry, an item is attributed to another entry: proved counterexamples. |
| C69 | The exported dependency graph shows exactly the reads that happened | partial | `Dag.dag_reads_partial`, `Dag.dag_acyclic_partial`, `Dag.dag_cycle_violated` | Proved for histories of executions. The content check of an edited cell that has not been run records static uses under the current run's time, so that two cells become parents of each other: proved counterexample. |
| C70 | The exported dependency graph mentions only executed cells | partial | `Dag.dag_cells_partial`, `Dag.dag_cells_violated` | Proved if no symbol is created without a time. A symbol created implicitly and assigned later lists the cell -1: proved counterexample. |
| C71 | Exported import statements recreate the binding | partial | `Dag.Import.import_partial`, `Dag.Import.import_violated` | Holds for statements that bind no name twice. `from m import a as x, b as x` and `import b as a, a.c`: proved counterexamples. |
| C72 | Scopes of different threads do not leave settings behind | partial | `Scoped.offset_threads`, `Scoped.child_violated_threads` | Holds for offsets. Overlapping scopes of override_child_cell in two threads leave the override of the first in place: proved counterexample. Entering and leaving are taken to be atomic. |
| C73 | The clock never goes back | partial | `Clock.clock_partial`, `Clock.Runs.runs_partial`, `Clock.Runs.goes_back`, `Clock.Runs.clock_claim_false` | Over whole runs, with the numbers that create_and_track gives them: proved if no run that is kept in the history of IPython follows one that is not (Runs.runs_partial). Violated otherwise: the next kept run gets the number of the run that was not kept, and its timestamps are smaller (Runs.goes_back, Runs.clock_claim_false). clock_partial is the same for arbitrary orders of events in which no timestamp is taken between the start of a run and the reset of the tracer. The precheck runs there; that it takes no timestamps is not modelled. |
| C74 | What a reactive batch executes | partial | `Store.pull_exact_partial`, `Store.pulled`, `Store.pull_exact_violated` | For start cells without repetition. The reactive loop passes lists with repetition, and then the loop may stop before cousins are included: proved counterexample. pulled is what holds without updates of cousins, or with repetition. |
| C75 | No gaps in a reactive batch | partial | `Store.between_partial`, `Store.between_violated` | With updates of cousins. Without them, a diamond has a gap: proved counterexample. |
| C76 | Closures are computed on any graph | partial | `Store.pull_ends_partial`, `Store.pull_ends_violated`, `Store.pull_diverges` | For acyclic tables of parents. Two clean cells that use each other's variables make the recursion endless: proved for every depth of stack. |
| C77 | In-order execution follows the notebook | proved | `Store.in_order` |  |
| C78 | At most once per reactive run | partial | `Client.once_partial`, `Client.once_violated`, `Client.once_violated_forced` | Proved for batch mode when reactive, and for incremental mode when every schedule was computed after the execution it follows. A schedule requested before leads to a second execution; so does a cell that is both forced and in the closure of a cascading one when the kernel is not reactive: proved counterexamples. |
| C79 | Reactive runs end | partial | `Client.bounded_partial` | Under the hypotheses of C78. |
| C80 | Reactive runs are complete | partial | `Client.covered_partial`, `Client.covered_violated` | For reactive schedules; in incremental mode without in-order semantics or strict schedules, which pass over earlier cells by design. |
| C81 | Dotted names resolve through attributes only | proved | `Lookup.qualified_iff` |  |
| C82 | A cell is given its own output | partial | `Output.cell_output_partial`, `Output.cell_output_violated` | For cells that run with the recorder. Others, such as all under syntax_transforms_only, are given the output of the cell recorded last: proved counterexample. |
| C83 | References name what the code reaches | partial | `Ref.chain_named_partial`, `Ref.chain_unknown_last`, `Ref.chain_skips`, `Ref.chain_loses_start`, `Ref.chain_loses_sign`, `Ref.chain_called_element` | For accesses that start with a variable or a display, whose subscripts are known (the last may be unknown), and whose called parts are variables, attributes or elements with text keys. Proved counterexamples: m[i][0] is read as m[0]; f()().x and (a if b else c).x as the variable x; a[-i] as a[i]; a[0]() as a['0'](). |
| C84 | Reactivity marks cover what is reached through the marked object | partial | `Ref.marks_partial`, `Ref.marks_violated` | For references in which no blocking mark follows a reactive or cascading one. In $x.$:y the blocking of y is lost: proved counterexample. |
| C85 | Assigning to a member does not assign the container | partial | `Ref.assigned_partial`, `Ref.assigned_violated` | For targets without reactive marks. $x.y = 1 counts as an assignment of x: proved counterexample. |
| C86 | Equality of references is an equivalence | partial | `Ref.eq_partial`, `Ref.eq_violated` | Reflexive, symmetric and consistent with the hash; transitive only over references that have both a position and a scope: proved counterexample. |
| C87 | Waiting is judged exactly | partial | `Wait.waits_partial`, `Wait.waits_sound_partial`, `Wait.waits_any_order`, `Wait.waits_violated_cycle`, `Wait.waits_violated_moved` | In-order: exact when no variable depends on itself and no cell is moved between an execution and the question; on any graph a positive answer is right. Proved counterexamples: variables that depend on each other (the answer depends on the order of questions) and moved cells (old answers are given again). Any-order: exact. |
| C88 | Staleness can always be decided | partial | `Wait.isWaiting_total_partial`, `Wait.isWaiting_total_uncleared`, `Wait.isWaiting_exact`, `Wait.isWaiting_violated` | Decided on any graph until the user clears the marks; afterwards when no waiting object contains itself through waiting parts. Otherwise the recursion does not end: proved counterexample. |
| C89 | An object is at least as new as everything inside it | partial | `Age.covers_partial`, `Age.covers_violated`, `Age.covers_violated_same` | For updates in which members are really exchanged or mutated (EvOk.settled) and assigned objects share no parts with others (EvOk.notShared). Proved counterexamples: `x = [t]` makes t and its elements newer but not another `u = [t]`; assigning the object that x.y.z already holds makes x.y newer than x. |
| C90 | An update makes newer exactly what it concerns | partial | `Age.update_exact_partial`, `Age.start_exact`, `Age.exact_violated_list`, `Age.exact_violated_sibling` | For updates that do not descend into the object. Proved counterexamples: `x = [t]` makes t newer; a call a.b.f() makes the unrelated a.c newer. |
| C91 | Updates keep the record of which names an object has right | partial | `Age.names_partial`, `Age.names_violated` | For objects other than data frames. A column of a data frame changed in place adds df['a'] to the names of the object of df.a: proved counterexample. |
| C92 | Updates come to an end | proved | `Age.update_terminates` | Fuel above the number of symbols is enough. |
| C93 | Ready means outdated | partial | `Ready.ready_partial`, `Ready.ready_any_order`, `Ready.ready_sound`, `Ready.ready_hybrid_partial`, `Ready.ready_violated` | In any order exact; in order a ready cell is outdated, and exact if nothing it reads was last updated from below. Proved counterexample: an update from below hides an earlier one from above, because only the last update is looked at. Widget overrides and reloaded modules are excluded. |
| C94 | Cells run by themselves are outdated in what is marked | partial | `Ready.forced_partial`, `Ready.forced_ready`, `Ready.ready_violated` | As C93; ready_violated covers forced cells as well. |
| C95 | An assigned value depends on everything it was computed from | partial | `Rval.deps_exact_partial`, `Rval.deps_member_partial`, `Rval.deps_no_member`, `Rval.deps_violated_index`, `Rval.deps_violated_slice`, `Rval.deps_violated_object`, `Rval.deps_violated_deep`, `Rval.deps_violated_callee`, `Rval.deps_violated_comprehension`, `Rval.deps_violated_shadow`, `Rval.deps_violated_star`, `Rval.deps_violated_extra`, `Rval.deps_violated_unrecorded` | Exact for expressions whose accesses are recorded, start with a variable or call and have constant subscripts, and whose comprehensions use no variable twice (Good). Proved counterexamples: a[i] does not depend on i; a[1:3] + b not on a; (a + b).c not on a; f(x).a.b and f(x)(y) not on x; [x + w for x in x] not on x; [f(y) for y in r] not on a y that f returns; g(*(a + b)) not on a; [b for *a, b in xs] depends on an unrelated a; x.b that was not recorded gives no dependency, because the fallback resolves x in a mode in which nothing is resolved. |
| C96 | Variables that are read are recorded as used | partial | `Rval.usages_partial`, `Rval.usages_violated`, `Rval.usages_violated_inner` | As C95, without starred arguments. f(*xs) does not record the use of xs: proved counterexample. |
| C97 | A call of an annotated library function updates what the annotation names | partial | `Annot.args_partial`, `Annot.args_violated_two`, `Annot.args_violated_star`, `Annot.args_violated_receiver`, `Annot.args_violated_self` | For calls without starred arguments, complete when no argument has two symbols. Proved counterexamples: f(x + y) updates only one of x and y; f(*xs, y) updates the argument of another parameter; a receiver not called self, and self in the stub of a function, lead to wrong updates or an exception. |
| C98 | A method call gets the annotation of its class or else of the nearest base class | partial | `Annot.choose_partial`, `Annot.choose_violated`, `Annot.choose_violated_order` | If every annotated method is defined by the class it is annotated for. Annotations of inherited methods for several classes replace each other, because they are also registered by function: proved counterexamples. |
| C99 | A stub applies to the modules and functions it is given for | partial | `Annot.stubs_partial`, `Annot.stubs_sound`, `Annot.stubs_violated_modules`, `Annot.stubs_violated_twice` | For module decorators with one argument and at most one stub for the class. A decorator with two modules is ignored; of two stubs for one class only the last counts: proved counterexamples. |
| C100 | What a statement binds or deletes is recorded, and nothing else | partial | `Bind.bindings_recorded_partial`, `Bind.assignment_misses_walrus`, `Bind.loop_misses_walrus`, `Bind.with_misses_tuple`, `Bind.with_misses_walrus`, `Bind.class_misses_walrus`, `Bind.annotation_misses_walrus`, `Bind.augmented_misses_walrus`, `Bind.match_misses_capture`, `Bind.import_misses_dotted`, `Bind.import_misses_star`, `Bind.unpacking_misses_list_after_star`, `Bind.delete_misses_tuple`, `Bind.delete_misses_after_walrus`, `Bind.default_walrus_crashes`, `Bind.base_walrus_crashes`, `Bind.bare_annotation_invents`, `Bind.lambda_invents`, `Bind.not_evaluated_invents`, `Bind.while_invents` | For the statements described by Fine; for all others there is a proved counterexample of their kind: y = (x := 5) does not record x, `with f() as (a, b)` records nothing, names bound by case patterns, `import a.b` and `del (a, b)` are not recorded, `:=` in a default, base or decorator fails an assertion, and `:=` that was not evaluated counts when its variable has a value. |
| C101 | What a statement reads is recorded as used, and nothing else | partial | `Bind.reads_recorded_partial`, `Bind.only_reads_recorded_partial`, `Bind.with_unseen`, `Bind.call_unseen`, `Bind.cond_unseen`, `Bind.class_unseen`, `Bind.annotation_unseen`, `Bind.lambda_unseen`, `Bind.handler_unseen`, `Bind.while_imagined`, `Bind.lambda_imagined` | For the statements described by Attentive and Reserved. Proved counterexamples: `with f(x):` records no use of x, nor does f(x, (y := 1)) nor `if x:` with := in its body; class keywords, annotations, defaults of lambdas and tuples of exception types are not looked at; `while c: y = 5` records a use of y. |
| C102 | Bindings within a statement are recorded in the order in which they happen | partial | `Bind.inner_first_partial`, `Bind.order_violated` | Bindings inside the value of another come first. f((x := 5), (y := x)) records y before x: proved counterexample. |
| C103 | Every statement that runs is dealt with once, when its effects are there | partial | `Steps.dealt_with_partial`, `Steps.cell_dealt_with_partial`, `Steps.dealt_with_once`, `Steps.later_iteration`, `Steps.failed_header` | At most once always; exactly and in order for what is run outside later iterations of loops, if no if, for or with raises before its body is entered (Regular). Proved counterexamples: `y = x` that is run in a second iteration only is never dealt with; `try: for i in f(): ... except: z = 0` where f raises deals with the loop when the handler begins. |
| C104 | A variable bound anywhere in a cell counts as updated by it | partial | `Steps.noted_partial`, `Steps.still_known`, `Steps.only_noted`, `Steps.loop_unnoted`, `Steps.unnoted` | For what is bound in a statement that is dealt with, and for later iterations if the enclosing statement of the cell assigns the variable on all paths, or reads it and it was known. Otherwise it fails: after a statement with a loop only what is found assigned in both the loop and its else part is looked at, so `for i in [1, 2]: if i == 2: y = x` leaves y as it was: proved in general (loop_unnoted) and on an example. |
| C105 | What happens is attributed to the function call in which it happens | partial | `Frames.frames_exact`, `Frames.attributed_partial`, `Frames.not_resumed` | The frames of the tracer are exactly those that are seen, whenever it is on: proved for all executions without generators. It is on at each statement of a seen frame, unless the statement that is run in the first frame is already finished, as in __exit__ of a with statement: proved counterexample. |
| C106 | The result of a call depends on what the function returned | partial | `Frames.results_partial`, `Frames.second_return`, `Frames.repeated_call`, `Frames.loop_result` | Exact if each return statement is executed at most once, no call leads to two calls of functions and no loop suspends tracing. Proved counterexamples: in `y = f()`, `z = f()` in one cell z does not depend on what f returns; list(map(f, [a, b])) depends only on the first result; a return in a later iteration of a loop is not seen. |
| C107 | Inside a called function a parameter depends on exactly what was passed for it | partial | `Args.received_partial`, `Args.only_received_partial`, `Args.receiver_lost`, `Args.default_instead`, `Args.keyword_for_required`, `Args.keyword_only_lost`, `Args.compound_lost`, `Args.receiver_shift`, `Args.unbound_shift`, `Args.default_rebound`, `Args.default_of_another` | Complete for ordinary parameters if no argument is starred, keywords are for parameters with defaults (or there are none) and the argument is a name or noted by the tracer; exact if no positional value goes to a parameter with a default. Proved counterexamples: in f(a, b) for def f(x, y=d) the parameter y depends on d and not on b; f(x=a) for the same function matches nothing; nor does f(a, k=b) for def f(x, *, k); f(a + b) makes x depend on nothing; a first parameter not called self shifts the arguments, as does C.m(obj, a); the receiver is recorded as None. |
| C108 | Inside a function the name of a parameter stands for the parameter | partial | `Args.parameter_found_partial`, `Args.only_parameters`, `Args.positional_only_lost`, `Args.same_cell_lost` | For parameters that are not positional only, in functions defined in an earlier cell. Proved in general that positional only parameters, and all parameters of functions called in the cell that defines them, are taken for variables of the same name outside. |
| C109 | The writes of a cell are what it stored | partial | `Writes.written_recorded_partial`, `Writes.parts_recorded`, `Writes.only_written`, `Writes.static_origin`, `Writes.static_or_dynamic`, `Writes.stays_dynamic`, `Writes.element_unrecorded`, `Writes.container_unrecorded`, `Writes.list_unrecorded` | Nothing else is recorded, never as both, and dynamic stays dynamic: proved in full. What is stored is recorded if it is a variable whose value has no known attributes or elements, or has some and the write is not static. Proved in general: `x[0] = 5` and `x.a = 5` are not recorded, and `x = [1, 2]` records x[0] and x[1] but not x, because the test meant for members inherited from a class is applied to the variable itself. |
| C110 | A binding or deletion made in a function is recorded for the variable it concerns | partial | `Target.recorded_partial`, `Target.read_partial`, `Target.nonlocal_far`, `Target.nonlocal_unknown`, `Target.nonlocal_in_class`, `Target.declared_deleted`, `Target.far_stale`, `Target.deleted_stays`, `Target.global_read_shadowed` | Exact for all nestings and sequences if names declared nonlocal belong to the function just around and no name declared global or nonlocal is deleted. Proved in general: an assignment to a nonlocal variable of a function further out is recorded for the function in between; `global x; del x` in a function is not recorded; `nonlocal` in the body of a class records a global variable; and a name declared global is read from a function around that has a variable of this name. |
| C111 | The type declared for a variable is one that its value has | partial | `Types.sound`, `Types.tight`, `Types.declared_partial`, `Types.list_order`, `Types.set_order`, `Types.inner_misnamed`, `Types.inner_confused`, `Types.inner_wrong` | The type is a type of the value and as tight as stated for all finite values: proved in full, as is the independence of order. The text stands for that type if all classes in the value are found in their modules under their own names. Proved in general that objects of a class defined inside another are declared with a name that is not that of the class, which may be that of a different class. Missing: values that contain themselves, for which the code does not return. |
| C112 | After a cell has run its variables are known with their values | partial | `Resync.synced`, `Resync.listed`, `Resync.elements_right`, `Resync.succeeds_partial`, `Resync.others_kept`, `Resync.element_lost`, `Resync.empty_fails` | Variables that count as updated by the cell get their objects and are listed exactly, and nothing wrong becomes known about elements: proved in full. It succeeds if no list with known elements is empty. Proved counterexamples: after a loop that assigns x and appends it, the symbol of lst[0] is made the one of lst[1] and lst[0] is forgotten; if the list is empty at the end, the bookkeeping raises. Variables that do not count as updated stay as they were known, whatever they are: proved in general. |
| C113 | A new object for a variable leaves what is known about the old one to its other names | partial | `Rebind.moved_right`, `Rebind.nothing_lost`, `Rebind.absent_stays`, `Rebind.others_kept`, `Rebind.kept_partial`, `Rebind.shared_lost`, `Rebind.named_alive`, `Rebind.nameless_dead`, `Rebind.recorded_partial`, `Rebind.property_fails` | What is recorded about the new object is right, parts the new one lacks stay, others are untouched, and the old object is given up exactly when no name is left: proved in full. All stays recorded for other names if the old object is not called after the variable or the parts of the new one are recorded already. Proved in general: otherwise the parts that both objects have are taken away from the old object though it has another name, and the symbols, with what depends on them, stand for parts of the new one; and the assignment is not recorded if a property of the new object raises an error of its own. |
| C114 | What calls of library code change is recorded | partial | `Extern.container_partial`, `Extern.value_unrecorded`, `Extern.reading_unrecorded`, `Extern.quiet_recorded`, `Extern.valued_unrecorded`, `Extern.only_own`, `Extern.depends_on_args`, `Extern.first_arg_recorded`, `Extern.first_arg_unrecorded`, `Extern.later_arg_exact`, `Extern.bytearray_unrecorded`, `Extern.bound_unrecorded`, `Extern.bound_append_fails`, `Extern.clear_fails` | Recorded for all changing methods of lists, dictionaries and sets except dict.pop, dict.popitem, dict.setdefault and set.pop returning a value; reading methods, other library objects, the extent of what is recorded and the dependencies: proved in full. Proved in general: those four methods are not recorded if they return a value other than None; a function of a module given a list, dictionary or set (random.shuffle, heapq.heappush) is not recorded as changing it; changes of a bytearray never are, since its type is listed as immutable; a method kept in a variable records nothing, and for append and extend the bookkeeping fails; clear fails for a dictionary with known keys of different types. |
| C115 | Parts of objects that are read are recorded as what they are | partial | `Chain.recorded_partial`, `Chain.last_loaded_partial`, `Chain.loaded_only_partial`, `Chain.others_kept_partial`, `Chain.variables_kept_partial`, `Chain.clean_after`, `Chain.value`, `Chain.target_right_partial`, `Chain.index_confused`, `Chain.missing_recorded`, `Chain.none_confused`, `Chain.slice_unloaded`, `Chain.slice_call_detached`, `Chain.slice_store_lost`, `Chain.slice_dependency_lost`, `Chain.first_read_unused`, `Chain.enclosing_unused`, `Chain.known_used` | Proved for expressions that read no part of None or the shell, use indices of supported types, and index only variables and results of methods with indices that are themselves made of parts. Otherwise false: after x.a[y.b] attribute a of x is recorded as the object y (index_confused); a failed x.a followed by y.b in the same statement records x.a as y (missing_recorded); x.a.k with x.a None records x.a as None.k (none_confused); slices are not recorded as read, so that after y = x[1:3] + z, y depends on z only (slice_unloaded, slice_dependency_lost, slice_call_detached), nor as targets (slice_store_lost). The first read of an attribute, and every read in a function of an attribute of an outer variable, records no use (first_read_unused, enclosing_unused). |
| C116 | Assigning to a part of an object records that part, as what it now is | partial | `Place.accurate_partial`, `Place.recorded_partial`, `Place.others_kept_partial`, `Place.dependencies_partial`, `Place.dependencies_only_partial`, `Place.dealt_with_partial`, `Place.ends_kept_partial`, `Place.misplaced`, `Place.never_ends`, `Place.ancestor_confused`, `Place.chained_confused`, `Place.unpacked_confused`, `Place.augmented_confused`, `Place.negative_confused`, `Place.index_dependency_lost`, `Place.cycle_made` | Proved for all states if no object around a target already has the value, targets do not matter to each other, and lists and dictionaries get the value on the right side. Otherwise false, with proofs: x['a']['n'] = 0 is recorded as an element 'n' of x if x has a 0 (in general: misplaced); x[0], x[1] = x[1], x[0] records both as the pair; x[0] += 1 records None; x[-1] = y leaves x[1] as it was; x[i] = i does not depend on i; x['child']['up'] = x makes x a part of itself, after which no assignment to its parts is dealt with (never_ends). |
| C117 | Objects that nothing names any more are let go of, and nothing else is forgotten | partial | `Garbage.freed_partial`, `Garbage.kept_partial`, `Garbage.known_partial`, `Garbage.held_partial`, `Garbage.marking_ends_partial`, `Garbage.cycle_kept`, `Garbage.element_kept`, `Garbage.twice_kept`, `Garbage.temporary_kept`, `Garbage.returning_lost`, `Garbage.reused_lost` | Proved for all sequences of operations in which parts are used only of named objects, no elements are deleted, deleted names are not used again before the collection, no object gets a name again after it had lost all of them, and no name gets another object while all other names of its object were lost in the same cell; letting go also needs objects that do not contain themselves. Each of these conditions is needed, with proofs: an object that contains itself is held forever after del x; del x['a'] leaves the element held forever; y = x; del y; x = 5 in one cell leaves the object and its parts held forever; using a part of an object that has no name (f().a) holds that object forever; an object that is named again in the cell in which it lost its name loses all that was known of its parts; del x; x = 5 in one cell forgets x. Left out: anonymous symbols, the transfer of parts to a new object, renumbering of lists, Python's limit of recursion. |
| C118 | The marks $, $$ and $: decide which cells are run again | partial | `React.store_reaches_partial`, `React.read_reaches_partial`, `React.exact_partial`, `React.blocked_read_partial`, `React.root_blocked`, `React.blocked_store_partial`, `React.blocked_variable_partial`, `React.cascade_partial`, `React.block_lost`, `React.block_hides`, `React.late_block`, `React.lost_wide`, `React.sibling_forced`, `React.wider_than_marked`, `React.cascade_broken` | Reaching readers is proved for all histories and cells of any assignments without $:; that no others are run again, for a cell of one assignment without $$ and readers that had seen all they listen to; $: in targets, for cells of one assignment; cascades, for chains of any length of cells of one assignment. Otherwise false, with proofs: $x.$:y is read as if the $: were not there; $:x = 1; $x = 2 in one cell, or x.$:y = 1; x.$z = 2, has no cell run again; x = 1; $:x = 2 has readers of $x run again; $$x = 1; x = 2 has no cell run again; x.$$y = 1 has the readers of x.z run again; x = 1; x.$y = 2 has the readers of x.z run again; a cascade from $$x.y = 1 ends where x is assigned something computed from x.y. Left out: several names for one object, calls in chains, assignments of the value that was there before. |
| C119 | Each library call is recorded with its own arguments and result | partial | `Pending.sound`, `Pending.recorded_partial`, `Pending.exact_partial`, `Pending.loop_args_partial`, `Pending.failed_recorded`, `Pending.other_result`, `Pending.lost_callback`, `Pending.lost_shell`, `Pending.lost_failing`, `Pending.lost_dropped`, `Pending.loop_crash`, `Pending.loop_other` | Proved for all statements, exceptions and moments at which tracing is turned off: every record is of a library call that was made, once, in order, with the arguments and result of that call. All calls are recorded if the statements come to their end and tracing is not turned off while arguments of a library call are evaluated or by what raises. Violated otherwise: a call that raises is recorded with the next statement, with the result of another call; q.extend(sorted(xs, key=k)) with a notebook function k, and calls of shell methods in arguments, lose the record of q; calls of a statement that fails are lost; a loop over a zip made before raises IndexError in the handler. |
| C120 | Only reads that would fail are left out when readiness is decided | partial | `Fails.kept_partial`, `Fails.dropped_partial`, `Fails.ready_partial`, `Fails.span`, `Fails.span_only`, `Fails.method_iff`, `Fails.matrix_lost`, `Fails.record_lost`, `Fails.mapping_lost`, `Fails.default_lost`, `Fails.method_lost`, `Fails.negative_kept`, `Fails.ready_iff`, `Fails.call_ready_iff`, `Fails.called`, `Fails.digits_lost` | Proved for accesses in which every key is spelled out, with symbols up to date: an access that does not fail has all objects on the way count as read and makes the cell ready when its variable is assigned anew; objects that lack what is asked for do not count. Both under conditions on the kind of object that are shown to be needed: violated for m[i][2] (taken for m[2], so the cell is never ready if m has fewer rows), d[i].name, text keys of mappings that are not dicts, keys made up by defaultdict, attributes of dicts, and negative indices out of range. The in-order exception and method calls are settled exactly. |
| C121 | After the user's runs, a new schedule is asked for | partial | `Session.asked_partial`, `Session.asks_counted`, `Session.several_asks`, `Session.never_again`, `Session.late_after_batch`, `Session.late_after_deferred`, `Session.late_direct` | Holds for sessions that do not mix batches or put-off runs with runs one by one and have no alternate-mode run with incremental reactivity. Violated otherwise: batches and put-off runs count up a counter and nothing counts it down, so that from then on the end of an ordinary run never makes the client ask (`never_again`). |
| C122 | Alternate mode is for one run | partial | `Session.mode_partial`, `Session.run_partial`, `Session.press_partial`, `Session.returns_partial`, `Session.slice_partial`, `Session.lingers`, `Session.twice`, `Session.switched`, `Session.slice_lost` | Holds for batch reactivity, and for incremental reactivity when no alternate-mode run is counted as under way. Violated: with incremental reactivity the next ordinary run is in the other mode too, and one schedule does not undo two presses; `%flow reactivity` in a cell run in alternate mode leaves the mode flipped; with incremental reactivity in reactive mode the slice commands run nothing. |
| C123 | A cell is run by the kernel of its own notebook | partial | `Connect.run_partial`, `Connect.known`, `Connect.own_partial`, `Connect.released`, `Connect.changed`, `Connect.shut_down`, `Connect.one_notebook`, `Connect.unloaded`, `Connect.elsewhere`, `Connect.forgotten`, `Connect.no_kernel`, `Connect.too_early` | Holds for one notebook whose kernel is an ipyflow kernel or has been offered a connection, and for several if each schedule arrives for the notebook of the cells that were put off. Violated otherwise: the list of put-off cells is shared by all notebooks, so that another kernel runs the cell (`elsewhere`) or none (`forgotten`); the wrapped command ends with an error without a kernel, while another kernel starts, and for good after the extension was unloaded (`unloaded`). |
| C124 | A lambda that is given to a library computes what it computes elsewhere | partial | `Lambda.quiet_partial`, `Lambda.live_partial`, `Lambda.new_object`, `Lambda.left_alone`, `Lambda.untraced`, `Lambda.not_recognised`, `Lambda.stale_global`, `Lambda.stale_cell`, `Lambda.default_changed`, `Lambda.still_traced` | Holds while no variable changes after the lambda was given to the library and no default would be computed differently now, for functions that refer to each other in any way (`quiet_partial`); and for all later states for lambdas that refer to no function of the notebook, have no variables of enclosing functions and no computed default (`live_partial`). Violated otherwise: the copy has the globals of the moment if the lambda calls a function of the notebook (`stale_global`), always has the closure variables of the moment (`stale_cell`), and defaults are computed anew (`default_changed`). Each time the library gets another object (`not_recognised`), so that a callback cannot be removed. |
| C125 | A function made from a slice gives what running the slice gives | partial | `Funct.gives_partial`, `Funct.parameters`, `Funct.no_such_name`, `Funct.comment_last`, `Funct.two_last`, `Funct.assign_and_expr`, `Funct.wide_expr`, `Funct.continued`, `Funct.module_name`, `Funct.none_passed`, `Funct.called_elsewhere`, `Funct.positional` | Proved for slices without blocks whose last line is one statement, called from the notebook with keyword arguments other than None, if no name that is needed and assigned is that of a builtin or loaded module. Violated otherwise: a comment as the last line, or two statements of which the first is an assignment, or a continued last line: no function is made; `x; y` gives x; an expression over several lines gives None; names of modules cannot be given and make the call raise when they are assigned; None cannot be given; defaults are taken from whoever calls the function; the order of parameters is that of a set. |
| C126 | What is shown and copied from a slice is the slice | partial | `Copy.copied_iff`, `Copy.shown_iff`, `Copy.single_quote`, `Copy.double_quote`, `Copy.half`, `Copy.emoji`, `Copy.ampersand`, `Copy.percent_sign`, `Copy.comparison` | Decided for all texts without & and %: copied as they are exactly if they have neither kind of quote and no character beyond U+FFFF; for all texts without &: shown as they are exactly if nothing in them starts like a tag. Violated otherwise, in particular for every slice with a string literal. What is missing: texts with & and %, for which only examples are given. |
| C127 | The kernel works with the code on the screen | partial | `Content.heard_iff`, `Content.heard`, `Content.kept`, `Content.settled_partial`, `Content.taken_back`, `Content.run_and_taken_back`, `Content.turned_into_text`, `Content.deleted`, `Content.blocked` | Proved: what the kernel works with after every message, that it is the code on the screen (heard, heard_iff), that only edits can change that (kept), and that it holds once the notebook has come to rest with something new (settled_partial). Violated: an edit that is taken back within the half second after the kernel heard of it in a request or by a run is never reported (taken_back, run_and_taken_back); a code cell turned into text is analysed with its old code (turned_into_text); code on which the analysis fails with another exception than a SyntaxError keeps the kernel from hearing of the cells below (blocked). |
| C128 | A link between cells goes away with the code that makes it | partial | `Content.unused`, `Content.used`, `Content.unassigned_partial`, `Content.changed_while_running`, `Content.back_again` | Proved: a link goes away with the uses once the kernel has seen them (unused), stays while a variable is assigned and used (used), and goes away with the assignments in the first answer (unassigned_partial). Violated: the link is back in the answer after any other cell is run, since the variables written in the last run are added again on the second check of the same code (back_again); a link does not go away if the use was taken out while the cell was running (changed_while_running). |
| C129 | Moving a widget runs again the cells that read it | partial | `Widget.noticed_partial`, `Widget.settled_by_run_partial`, `Widget.runs_again`, `Widget.unnoticed`, `Widget.ends_with_exception` | Proved: a widget moved to another number makes the cells that read it ready until they are run again, whatever happens meanwhile (noticed_partial); a cell that sets none of the widgets it reads is not ready right after it ran (settled_by_run_partial). Violated: a cell that reads a widget and then sets it is ready right after it ran (runs_again); nothing is noticed when two words or only blanks are typed, since the text is put unquoted into an assignment that is parsed (unnoticed); a program's own assignment of such a text raises a SyntaxError in the user's cell (ends_with_exception). Missing: texts that parse, containers of widgets, several names for one widget (see C131). |
| C130 | The code for what was read from a widget gives what it shows | partial | `Widget.code_partial`, `Widget.two_from_one_cell`, `Widget.set_by_program`, `Widget.word_becomes_name`, `Widget.digits_become_number` | Proved: for a widget that is alone in its execution, is not set by programs, and shows a number or was never moved (code_partial). Violated: with two widgets made by one cell the code raises a NameError (two_from_one_cell); a value set by a program after a move wins over the later move (set_by_program); a word becomes a name (word_becomes_name); digits typed as text become a number (digits_become_number). |
| C131 | A widget that has a name is listened to, and the user's own callbacks stay | partial | `Listen.heard_iff`, `Listen.heard_partial`, `Listen.kept_iff`, `Listen.kept_partial`, `Listen.unheard_alias`, `Listen.unheard_self`, `Listen.dropped` | Proved: exactly when a widget is heard (heard_iff); it is from the binding of its only name until that name is bound again (heard_partial); exactly which assignments leave the user's callbacks (kept_iff), among them all that do not bind a name of the widget (kept_partial). Violated: unobserve_all is called when the first name is bound again: another name keeps the widget but it is no longer heard (unheard_alias), `s = tweak(s)` silences it (unheard_self), and the user's own callbacks are dropped even if the same widget is bound again (dropped). Missing: widgets in containers and in local scopes, deleted names. |
| C132 | A cell that uses values from further down is held back once | partial | `Hold.values_eq`, `Hold.run_again`, `Hold.shows_own`, `Hold.shows_nothing_printed`, `Hold.shows_previous_partial`, `Hold.result_twice`, `Hold.old_below_new`, `Hold.not_held_after_moving`, `Hold.result_of_another` | Proved: the variables after every history are those for exactly the right runs being held back (values_eq), a repeated run is executed (run_again), other runs show their own output (shows_own), and a run that is held back shows again what the last execution printed, if that was a plain one (shows_previous_partial, shows_nothing_printed). Violated: the old result is shown twice (result_twice); when the run is repeated and executed, the old output is shown below the new (old_below_new); the result of another cell may be shown, since IPython puts what is shown again into Out of the next run (result_of_another); a run is not held back if the cell was moved up since the last run and that was of the same cell (not_held_after_moving). |
| C133 | A run that was held back does not count as one | partial | `Hold.reported_partial`, `Hold.forgotten` | Proved for cells whose last run was not held back (reported_partial). Violated: right after a run that was held back a cell is not reported, whatever is out of date, since the run got a new counter (forgotten). |
| C134 | The code of a version makes that version | partial | `Versions.current_partial`, `Versions.version_exact`, `Versions.old_version_partial`, `Versions.change_lost`, `Versions.name_counts`, `Versions.first_raises`, `Versions.last_by_number`, `Versions.order_changed`, `Versions.second_name_missing` | Proved: code(x) makes x what it is now (current_partial), what the code of every other version makes of x, or that it raises (version_exact), which is right for variables that are only bound (old_version_partial). Violated: the version made by a change of a dictionary has code that leaves the change out, since the name notes the time at which it was bound (change_lost), so that the last version by number is not version -1 (last_by_number); a second name adds a version of the first (name_counts), and version 0 of the second name raises a KeyError (first_raises). What is missing: the order of elements, which may differ (order_changed), and elements read through a second name (second_name_missing). |
| C135 | The timestamp of a variable is that of its last change | partial | `Versions.timestamp_exact`, `Versions.timestamp_partial`, `Versions.timestamp_moved` | Decided for all notebooks (timestamp_exact); it is the time of the last change if no dictionary gets a second name (timestamp_partial). Violated: `y = x` moves the timestamp of every name of the dictionary, though nothing changed (timestamp_moved). |
| C136 | The code of an attribute computes the attribute | partial | `Selfuse.code_partial`, `Selfuse.self_update_raises`, `Selfuse.self_update_wrong` | Proved for notebooks in which no plain assignment sets an attribute to something computed from itself (code_partial); augmented assignments are fine. Violated: after `o.a = o.a + 1` the earlier assignments of o.a are missing from the code, since the reading of an attribute is noted when the statement is done and o.a has already been refreshed; the code raises an AttributeError, for all such notebooks (self_update_raises), or gives another value (self_update_wrong). What is missing: nothing within the modelled language. |
| C137 | The code of a variable includes what called functions read | partial | `Calls.code_runs_alone_partial`, `Calls.values_right`, `Calls.code_unknown`, `Calls.second_call_stale`, `Calls.Witness.changed_wrong`, `Calls.Witness.one_cell_raises` | Proved for all notebooks in which no cell calls a function a second time to read a variable that the cell has set (code_runs_alone_partial). Violated otherwise: a return statement is handled once per cell, so for `a = f()`, `y = 5`, `x = f()` in a cell the code of x lacks `y = 5` and gives the first result, whatever was run before (second_call_stale, changed_wrong); with everything in one cell the code of the second result raises (one_cell_raises). What is missing: arguments, nested calls and loops. |
| C138 | Watchpoints stop the program | partial | `Watch.stops_partial`, `Watch.stops_exact`, `Watch.raise_disables`, `Watch.Witness.loop_missed`, `Watch.Witness.second_call_missed`, `Watch.Witness.raising_late` | Proved: if no predicate raises, the program stops after exactly the executions that should stop it and are the first traced ones of their statement in the cell, once after each (stops_exact), so after all of them if no cell executes a statement twice (stops_partial). Violated: later iterations of a loop and later calls of a function are not looked at (loop_missed, second_call_missed); after a predicate of x raised (the exception is only logged) no watchpoint of any variable stops the program until x is set again (raise_disables), and what was found meanwhile stops it too late (raising_late). A predicate that takes only the value always raises, since position and symbol_name are passed by keyword. Missing: aliases, parts of objects, assignments of the same object. |
| C139 | Code of variables set in loops and branches | partial | `Loops.code_runs_alone_partial`, `Loops.branches_run_alone`, `Loops.values_right`, `Loops.later_iteration_lost`, `Loops.later_iteration_unknown`, `Loops.Witness.accumulator_lost`, `Loops.Witness.condition_lost`, `Loops.Witness.later_read_lost`, `Loops.Witness.empty_loop_takes`, `Loops.Witness.mention_takes` | Proved for all notebooks without loops (branches_run_alone), and with loops as long as what the tracer misses makes no difference (code_runs_alone_partial). Violated: a variable set only in later iterations keeps its old code or has none (later_iteration_lost, later_iteration_unknown); links to variables that the cell has set are missing if only later iterations read them (accumulator_lost, later_read_lost) or a while loop sets its condition (condition_lost); a loop without iterations takes over its variable (empty_loop_takes); a loop takes over variables of earlier loops that it mentions (mention_takes). |
| C140 | The code shown for a value is text that Python reads as the statements that were run | partial | `Text.code_reads_back_partial`, `Text.code_reads_back_iff`, `Text.bad_no_program`, `Text.reading_unique`, `Text.several_lines_read_back`, `Text.package_reads_back`, `Text.widget_raises_iff`, `Text.product_of_sums_lost`, `Text.quotient_by_call_lost`, `Text.empty_tuple_lost`, `Text.unbracketed_left_kept` | False as stated: on Python 3.9 and later an assignment on one line whose value is an operator with a bracket at both ends of its text, such as x = (a + b) * (c + d), loses these two brackets, and an empty tuple is lost altogether (bad_no_program, with no assumption on the other statements). Exactly these are lost (code_reads_back_iff); everything else is read back, uniquely (reading_unique). Showing the code in Jupyter raises in these cases (widget_raises_iff). |
| C141 | A slice of a cell by statements shows exactly the statements that the cell ran and those they depend on | partial | `Parts.magic_exact_partial`, `Parts.magic_given_partial`, `Parts.unfinished_raises`, `Parts.shortened_missing`, `Parts.whole_cells_shown`, `Parts.flag_without_effect`, `Parts.code_shows_others`, `Parts.never_warns` | Proved for %flow slice --stmt on a cell that ran to its end and has not had statements added or removed since (magic_exact_partial, magic_given_partial). Violated otherwise: the number of statements is taken from the text in the editor, so a cell that raised midway or had statements added has no slice by statements, each way to ask raises KeyError (unfinished_raises), and if statements were removed as many of those it ran last are missing (shortened_missing). cell.slice(stmts=True) formats with the class of cells, so it shows whole cells (whole_cells_shown), indeed the same as cell.slice() (flag_without_effect), and cell.code(stmts=True) shows other cells while cell.code() does not (code_shows_others). The warning for cells not yet run is unreachable, a KeyError is raised (never_warns). What is missing: memoized executions, tags, several statements with one timestamp. |
| C142 | The code shown for an execution of a cell is the code that it ran | partial | `Shown.shown_ran_partial`, `Shown.slice_ran_partial`, `Shown.shown_exact`, `Shown.shown_iff`, `Shown.edit_shown`, `Shown.past_rewritten`, `Shown.slice_entry`, `Shown.refused_shown`, `Shown.reproduce_exact`, `Shown.reproduce_beyond`, `Shown.Witness.slice_wrong`, `Shown.Witness.empty_memo` | Proved for executions whose cell was not edited, as far as the kernel heard, before it was run again (shown_ran_partial, slice_ran_partial); what is shown in general is the code heard last before that (shown_exact, slice_entry). Violated: the text in the slice is that of the editor, so after an edit a slice contains code that was never run (edit_shown, slice_wrong), and when the cell is run again the code heard before stays with the earlier execution for good (past_rewritten); the code of refused executions is shown (refused_shown). reproduce_cell prints what was run whatever was edited (reproduce_exact), but raises ValueError if nothing was run, and looking back one step too far gives an execution that never was if the cell was heard of before its first run (reproduce_beyond). What is missing: exceptions other than SyntaxError while new code is checked; ids replaced by the client. |
| C143 | The code of a variable reproduces objects changed by methods under several names | partial | `Inplace.code_makes_partial`, `Inplace.code_makes_late`, `Inplace.alias_never_in_code`, `Inplace.alias_undefined`, `Inplace.alias_lost`, `Inplace.alias_kept` | False as stated: the names of a set are all given the time of a change, and the statement that gave the name is reached only through the symbol for changes of the whole, which exists only after the first method call. So after x = set(), y = x, x.add(e), whatever comes before and after, the statement y = x is in the code of no variable (alias_never_in_code), the code of y leaves y undefined (alias_undefined) and the code of z = sum(y) raises NameError (alias_lost). Proved for variables when no statement reads such a name (code_makes_partial); in particular for all variables when names are given only after the first change (code_makes_late), when however naming counts as a change (alias_kept). What is missing: second names that were bound before, values other than numbers and sets of numbers, methods that return something. |
| C144 | Tracebacks show the frames of the program and no others | partial | `Hide.shown_partial`, `Hide.shown_exact`, `Hide.user_frame_lost`, `Hide.again`, `Hide.dev_all` | Proved if just the frames of the machinery are recognised and none is in the tracebacks of the exceptions the raised one came from (shown_partial; these may share nodes). What is shown in general is shown_exact: frames of the program in files whose path contains pyccolo are lost (user_frame_lost), and the tracebacks of the exceptions that the raised one came from (raise ... from ...) are not filtered at all. How IPython renders tracebacks is assumed. |
| C145 | Marks on cells show what the last schedule says | partial | `Paint.painted_partial`, `Paint.told`, `Paint.asked`, `Paint.painted_push_partial`, `Paint.kept`, `Paint.run_marked_again`, `Paint.text_keeps_slice`, `Paint.ready_forgotten` | Proved for the end of runs and for code cells that become active (painted_partial, told, asked; painted_push_partial shows that the marks are always updated and what the slices are without pull_reactive_updates); between such events marks stay, except that executed cells lose the marks of readiness (kept). Violated: the sets of ready cells are not updated when a cell is executed, so it is marked as ready again when another cell becomes active before the next schedule (run_marked_again); when a text cell becomes active the slices of the former cell stay marked (text_keeps_slice); with reactive highlights the set of ready cells is overwritten by the cells that ran (ready_forgotten). The minimap and hovering are not modelled. |
| C146 | Selecting cells in one notebook leaves the others alone | partial | `Paint.selected_partial`, `Paint.selected_last`, `Paint.selected_erased`, `Paint.mapping_lost`, `Paint.background_runs_nothing`, `Paint.kept` | Proved if the shown notebook was connected last (selected_partial); marks of notebooks in the background do stay (kept). Violated in general: the handlers of all connected notebooks paint the shown one, each from its own state, so the one connected last decides (selected_last), and if that is another one the marks vanish (selected_erased); each of them also replaces its table of cells by that of the shown notebook (mapping_lost), after which a notebook in the background runs none of the cells that its schedules call for (background_runs_nothing). |
| C147 | Code run inside a cell counts as part of that cell | partial | `Nest.attributed_partial`, `Nest.taken_over`, `Nest.code_partial`, `Nest.rerun_stale`, `Nest.recorded_partial`, `Nest.recorded_now_partial`, `Nest.outdated_unrecorded`, `Nest.earlier_uses_lost`, `Nest.use_lost`, `Nest.after_call_unrecorded` | A run inside a run takes the next number, which IPython then gives to the next cell as well. Proved as long as no cell is run after a cell that ran code inside with magics (attributed_partial), and without runs inside for code (code_partial) and dependencies (recorded_partial; recorded_now_partial shows that only what the other cell depends on now is in the way). Violated even then if the cell that set the variable was run again since without setting it: the reading cell gets no dependency by it at all (outdated_unrecorded). Violated otherwise: what the j-th run inside has set is said to have been set by the j-th cell run afterwards (taken_over), the next cell gets no dependency by it (use_lost), the cell itself run again right away keeps the code and dependencies of the code that was run inside (rerun_stale), what it read before is forgotten (earlier_uses_lost); after a direct call of run_cell the rest of the cell is not tracked at all (after_call_unrecorded). What is missing: static dependencies, statements, attributes and subscripts, memoized cells. |
| C148 | The variable that %%capture fills is tracked | partial | `Nest.outvar_partial`, `Nest.outvar_no_name`, `Nest.outvar_spurious` | Proved if the name is all there is on the line (outvar_partial). All of the line is taken as the name: with an option the symbol has a name with a blank in it, so that the variable is not tracked (outvar_no_name); with options only, a symbol is made for them (outvar_spurious). What is missing: whitespace other than blanks, abbreviated options, names that are made of quoted words. |
| C149 | A stub file registers what it says for the running Python | partial | `StubFile.blocks_partial`, `StubFile.blocks_sound`, `StubFile.nothing_else_evaluated`, `StubFile.docstring_stops`, `StubFile.no_colon_needed`, `StubFile.number_condition_stops`, `StubFile.long_condition_stops` | Proved for files whose strings are all conditions on tuples of up to three numbers or comments that start with an expression other than a comparison (blocks_partial), and in general that all that is registered stands in the file, inside of harmless comparisons only (blocks_sound), and that nothing else is evaluated (nothing_else_evaluated). Violated otherwise: a docstring ends the registration with an error and only the stubs before it are registered (docstring_stops); the first character is not looked at, so that a block that was commented out with # applies (no_colon_needed); sys.version_info >= 3 passes the check and is a TypeError (number_condition_stops), as is a comparison with four numbers that begin with the version (long_condition_stops). What is missing: complex, infinite and nan numbers. |
| C150 | Registered annotations of functions are in force | partial | `StubFile.in_force_partial`, `StubFile.in_force_sound`, `StubFile.file_alone_inert`, `StubFile.file_too_late`, `StubFile.bad_file_stops` | Proved for all sessions with well-formed files in which files registered on their own come before the import of their modules (in_force_partial), and in general that no function has an annotation nobody asked for (in_force_sound). Violated otherwise: registering a file, other than a directory, puts nothing in force (file_alone_inert), so that annotations for modules that are imported already have no effect (file_too_late); and a file with an error or a docstring keeps all annotations of its directory from having effect (bad_file_stops). What is missing: functions that several modules have, and methods, for which see C98 and C99. |
| C151 | Pointing at the bar of a cell lights the cells linked with it | partial | `Hover.pointed_partial`, `Hover.pointed_sound`, `Hover.late_cell_silent`, `Hover.stops_at_missing`, `Hover.refresh_goes_dark`, `Hover.stale_links` | Proved if what is shown was refreshed since the schedule, the cell had its bars by then, and the linked cells are there with theirs (pointed_partial), and in general that nothing else is lit than what the schedule of the last refresh says (pointed_sound). Violated otherwise: a cell that is scrolled to after the refresh lights nothing (late_cell_silent); if the first linked cell has been removed or has no bars, none of the others is lit (stops_at_missing); a refresh while the pointer is on a bar darkens everything (refresh_goes_dark); and a schedule that comes while cells are still to be run, or while another notebook is shown, has no effect on what is lit (stale_links). |
| C152 | No bar stays lit when the pointer has left | partial | `Hover.nothing_left_partial`, `Hover.leaving_darkens`, `Hover.deleted_leaves` | Proved unless a cell was removed from under the pointer since the last refresh (nothing_left_partial), whatever else happened while the pointer was on a bar (leaving_darkens). If a cell is removed from under the pointer, the bars that it lit stay lit (deleted_leaves) until the next refresh. |
| C153 | Uses of values set further below are listed | partial | `Lint.lint_partial`, `Lint.lint_sound`, `Lint.lint_some`, `Lint.lint_total`, `Lint.second_lost`, `Lint.removed_listed`, `Lint.removed_silent`, `Lint.gone_listed` | Proved if every cell that was run is in the order last told and no statement reads a variable at two places (lint_partial); with such statements, that nothing else is listed (lint_sound) and that for each such use some place is (lint_some); and that the list can always be made (lint_total). Violated otherwise: of two uses of a variable by one statement only the last is listed (second_lost); if flow is in the order of the notebook, values set by a cell that was removed are listed as if it stood below (removed_listed), otherwise they never are (removed_silent); a removed cell is listed for all that it used of cells that are there (gone_listed). |
| C154 | Registered tracers see the cells | partial | `Tracers.sees_partial`, `Tracers.sees_sound`, `Tracers.after_change`, `Tracers.one_of_a_name`, `Tracers.capture_first`, `Tracers.late_registration` | Proved if tracers were registered and deregistered in traced cells only and, for the recorder, the first traced cell since did not begin with %%capture (sees_partial); after a traced cell that registers or deregisters a tracer, whatever happened before (after_change); and in general that no others see statements (sees_sound) and one of a name at most (one_of_a_name). Violated otherwise: if the first traced cell of a session begins with %%capture, the recorder is never started and no output is recorded (capture_first); a tracer registered while tracking is off does not see the next traced cell (late_registration). What pyccolo does is assumed as stated in the model. |
| C155 | Debugging leaves tracking as it was | partial | `Tracers.debugger_partial`, `Tracers.disconnect_switches_on`, `Tracers.on_while_attached` | Proved for sessions with the three tracers of ipyflow in which tracking is not switched on while a debugger is attached and not off when one is disconnected (debugger_partial). Violated otherwise: disconnecting switches tracking on although the user had switched it off (disconnect_switches_on), and %flow on while a debugger is attached has cells tracked under the debugger (on_while_attached). |
| C156 | The cells above and below are found | partial | `Around.always_answers`, `Around.at_zero`, `Around.below_partial`, `Around.above_partial`, `Around.below_sound`, `Around.above_sound`, `Around.hidden_below`, `Around.hidden_above`, `Around.wrong_below`, `Around.untold_below`, `Around.gone_around` | Proved for code cells of the notebook as last told, if all cells up to the offset are code cells (below_partial, above_partial), and in general for such cells that what is given is a code cell on the right side (below_sound, above_sound); that the functions always answer in a running cell (always_answers), with the cell itself at offset zero (at_zero). Violated otherwise: a text cell in between hides the neighbour (hidden_below, hidden_above) and at larger offsets another cell is given (wrong_below); for a cell that is run before the kernel was told of it the first cell of the notebook is the one below (untold_below); with flow in the order of the notebook, for a cell that is run after it was said to be gone a removed cell is given at every offset (gone_around). |
| C157 | The cell that was run last | partial | `Recall.last_run_partial`, `Recall.first_fails`, `Recall.last_run_wrong` | Proved if the run right before was kept in IPython's history or this one is not (last_run_partial). Violated otherwise: after a run that is not kept (store_history=False), a kept run is given another cell (last_run_wrong). In the first run there is a KeyError rather than None (first_fails). |
| C158 | What a run wrote can be read by its number | partial | `Recall.stdout_partial`, `Recall.stderr_partial`, `Recall.let_go`, `Recall.untraced_none`, `Recall.unknown_number`, `Recall.own_output`, `Recall.other_output`, `Recall.number_twice` | Proved if all runs are kept in IPython's history, for runs that are traced and recorded, for good unless the output is large and the cell is run again with tracking on (stdout_partial, stderr_partial, let_go); errors for exactly the numbers no run has had (unknown_number); and in general for the run just made (own_output). Violated otherwise: a run that captures its output (%%capture) is given the output of the last run before it (other_output); a run that is not kept has its number given to the next one (number_twice); untraced runs have none (untraced_none). |
| C159 | Declared reads and writes are what counts | partial | `Declare.answered_iff`, `Declare.declared_partial`, `Declare.both_declared_partial`, `Declare.analysed_partial`, `Declare.declared_sound`, `Declare.known_iff`, `Declare.never_answered`, `Declare.unanswered_unknown`, `Declare.taken_back_stays`, `Declare.nothing_ignored`, `Declare.run_forgets` | Proved for messages that declare something only for cells the kernel has seen (declared_partial, both_declared_partial, analysed_partial); which messages are answered is characterised exactly (answered_iff), which cells are known too (known_iff), and whatever is taken as declared was declared (declared_sound). Violated otherwise: a message that declares something for a cell the kernel has not seen fails as a whole with a KeyError, as does every later one until the cell is run (never_answered), and new cells of it stay unknown (unanswered_unknown); declarations cannot be taken back (taken_back_stays); a cell declared to read and write nothing is analysed as if nothing was declared (nothing_ignored); a run forgets the declaration until the next message (run_forgets). |
| C160 | Links between cells survive a restart | partial | `Saved.before_runs`, `Saved.kept_any_order_partial`, `Saved.kept_in_order_partial`, `Saved.hidden_saved`, `Saved.hidden_read`, `Saved.run_drops`, `Saved.known_only`, `Saved.upwards`, `Saved.two_sided`, `Saved.one_sided`, `Saved.both_ways_lost`, `Saved.gone_stays`, `Saved.never_back` | Proved: until a cell is run, the client has just what was saved (before_runs); after that, saved links between cells that have not been run are kept if data may flow in any order (kept_any_order_partial), and in order for links to cells above of cells that are not found to read anything (kept_in_order_partial), in both cases for links that do not go both ways; links of present cells are between present cells, go upwards in order, and agree with children (known_only, upwards, two_sided). Violated: in order, a saved link hides the links to all cells further above as soon as one of the parents was run, even those to cells whose values are read (hidden_saved, hidden_read), and they are not saved any more, in any later session (never_back); links to a cell that was run go unless found again (run_drops), which may be intended; saved links that go both ways lose one direction (both_ways_lost); cells that were removed before the session keep their parents for good (gone_stays), which do not have them as children (one_sided). |
| C161 | Imports are recorded for the names they bind | partial | `Imports.recorded_partial`, `Imports.recorded_single`, `Imports.dotted_partial`, `Imports.kept_partial`, `Imports.kept_known`, `Imports.from_takes_over`, `Imports.same_name_lost`, `Imports.dotted_lost`, `Imports.other_name` | Proved for names that the same import does not mention as a package later on (recorded_partial; in particular for imports of one name, recorded_single), and for the first part of `import a.b` if nothing referred to the package yet (dotted_partial); other variables stay as they were unless a package of that name is mentioned without `as` (kept_partial), or, for imports of one name, if something refers to it (kept_known). Violated otherwise: `from math import sqrt` is recorded as an update of a variable called math (from_takes_over); after `from datetime import datetime, timedelta` the module is recorded as the value of datetime (same_name_lost); `import a.b` is not recorded if anything refers to a (dotted_lost); `import os.path` is recorded for posixpath (other_name). |
| C162 | Imports are exported as imports | partial | `Imports.listed_sound`, `Imports.listed_partial`, `Imports.never_listed`, `Imports.assigned_lost`, `Imports.plain_lost` | Proved in one direction for all sessions (listed_sound), in both for variables that are only bound by imports and not called like a package that is imported without `as` (listed_partial). Violated otherwise: a variable that was ever known as something else is never given as an import, until it is deleted (never_listed, assigned_lost); neither is c after `import c` if nothing referred to the module before (plain_lost). |
| C163 | The name shown for a part of an object is an expression for it | partial | `Naming.shown_partial`, `Naming.word_unquoted`, `Naming.digits_clash`, `Naming.rebound_wrong`, `Naming.deleted_wrong`, `Naming.wrapped_wrong` | Proved for lists, nested and with references to other variables to any depth, in sessions in which no statement takes an object away from a variable while another variable leads to it or a part of it, or makes the new value of a variable from its old one (shown_partial). Violated otherwise: keys that are words are shown without quotes, so that the name is never an expression for the part (word_unquoted); 1 and '1' are shown alike (digits_clash); after x = [1], y = x and x = [1] again, the items of y are shown as those of x (rebound_wrong), after x = [1], y = x, del x as items of a variable that is gone (deleted_wrong), and after x = [x] the items of the inner list as those of the outer one (wrapped_wrong). |
| C164 | The cells that fail the type checker are the ones marked | partial | `Checked.marked_iff_partial`, `Checked.answered_iff`, `Checked.off_unmarked`, `Checked.unrun_unmarked`, `Checked.quiet_same`, `Checked.edited_wrong`, `Checked.twice_wrong`, `Checked.parts_wrong`, `Checked.created_wrong`, `Checked.claim_false` | Proved for cells that were run and not edited since, if no variable that they read was created, deleted or changed in place since, and every assignment that changes the declared type of such a variable gives it a value of another class and is the first one since the cell was looked at (marked_iff_partial); with the setting off nothing is marked (off_unmarked). Violated otherwise: the mark does not depend on edits, on changes of the parts of values, on creation and deletion of variables or on a second assignment between two requests (quiet_same, edited_wrong, twice_wrong, parts_wrong, created_wrong); cells that were never run are never marked (unrun_unmarked), and a request that contains one that was sent before fails altogether (answered_iff). |
| C165 | Cells that show the slice of a tag are run again with the cells that carry it | partial | `Tagged.listed_iff`, `Tagged.listed_partial`, `Tagged.none_left_out`, `Tagged.fails_iff`, `Tagged.unrun_nothing`, `Tagged.unnamed`, `Tagged.taken_away_wrong`, `Tagged.old_number_ignored`, `Tagged.renamed_fails`, `Tagged.claim_false` | Proved for cells whose tags were taken away by commands only (listed_partial); no cell is ever left out (none_left_out), and what is listed is characterised exactly (listed_iff). Violated otherwise: a tag that was taken away from a cell in the notebook still has cells run again after it (taken_away_wrong). After a cell that was run without an id gets one, requests that name no cell fail with a KeyError (renamed_fails, fails_iff). Commands with the number of a run that is not the latest one of its cell do nothing (old_number_ignored). |
| C166 | The variables a text is found to assign are those it assigns | partial | `Assigned.found_iff`, `Assigned.found_partial`, `Assigned.own_value_missed`, `Assigned.imports_missed`, `Assigned.index_found`, `Assigned.annotation_found`, `Assigned.default_found`, `Assigned.loop_target_found`, `Assigned.attribute_found`, `Assigned.found_claim_false` | Characterised exactly for all texts (found_iff), and proved for texts in which the variable does not stand alone in a value assigned to it, nor in indices and bases of targets or defaults of lambdas, is not only annotated, and is not bound by `import x.y` or a star (found_partial). Violated otherwise: `df = clean(df)` is not found (own_value_missed), nor `import x.y` and star imports (imports_missed); found though not assigned are k in `d[k] += 1` (index_found), `x: T` (annotation_found), variables in defaults of lambdas (default_found) and in targets like `for d[k] in` (loop_target_found), and the attribute's name in `(p if c else q).x = 1` (attribute_found). |
| C167 | After an edit, links are shown for the variables that the new text assigns | partial | `Assigned.link_partial`, `Assigned.shown_iff`, `Assigned.statically_iff`, `Assigned.link_stays`, `Assigned.other_forms_stay`, `Assigned.link_goes`, `Assigned.link_claim_false` | Characterised exactly (shown_iff, statically_iff), and proved if the run assigned the variable by plain statements of the cell only and the new text has none of the forms of C166 that are got wrong (link_partial). Violated otherwise: links because of variables assigned by loops, `with`, augmented or annotated assignments, nested statements, imports with a dotted name, or from their own old value stay after every edit (link_stays, other_forms_stay); if `df = f()` becomes `df = clean(df)` the link goes (link_goes). |
| C168 | What the client tells about a variable reaches the cells and variables that use it | partial | `Told.never_fails`, `Told.accepted_iff`, `Told.declined`, `Told.marked_iff`, `Told.users_partial`, `Told.recent_never`, `Told.recent_missed`, `Told.deps_iff`, `Told.deps_others`, `Told.refresh_iff`, `Told.offered_iff`, `Told.waits_iff`, `Told.readers_partial`, `Told.refresh_readers_partial`, `Told.last_run_missed`, `Told.readers_claim_false`, `Told.users_claim_false`, `Told.refresh_claim_false` | Characterised exactly (marked_iff, refresh_iff, offered_iff, waits_iff, deps_iff), and proved for cells other than the one run last (readers_partial, refresh_readers_partial) and for variables that were neither assigned by the cell run last nor told of or refreshed since (users_partial). Violated otherwise: the variable gets the time of the cell run last, so that this cell is never offered though it read the old object (last_run_missed), and the variables it assigned are never out of date (recent_never, recent_missed); a request to refresh marks no variable at all (refresh_iff). |
| C169 | The cell named as the last one that updated a variable | proved | `Told.last_updated`, `Told.named_iff`, `Told.named_after_run`, `Told.named_stays` | For all histories. |
| C170 | A matcher of an annotation matches the symbols that are as it says | partial | `Matchers.answer_iff`, `Matchers.match_partial`, `Matchers.ref_never`, `Matchers.children_raises`, `Matchers.any_raises`, `Matchers.all_raises`, `Matchers.order_matters`, `Matchers.match_claim_false` | Every answer about a matcher without `Ref` is right (answer_iff), and there is an answer if the matcher contains no `AnyOf` and no `Children` (match_partial). Violated otherwise: `Children` always raises an AttributeError (children_raises); `AnyOf` raises a TypeError instead of answering that nothing matches (any_raises, all_raises), and then it depends on the order in which a set is walked over whether there is a match or an exception (order_matters); `Ref` matches nothing (ref_never). |
| C171 | Matchers bind their names to the symbols they matched | partial | `Matchers.bound_sound`, `Matchers.needed_bound`, `Matchers.all_binds_own`, `Matchers.any_binds_own`, `Matchers.unmentioned_unbound`, `Matchers.later_wins`, `Matchers.own_name_claim_false`, `Matchers.first_wins_claim_false` | What names are bound to is right for all matchers without `Ref` (bound_sound), and the names of all matchers that have to match are bound, except those of `Parents` and literal paths (needed_bound, all_binds_own, any_binds_own). Violated: `Parents` does not bind its name (unmentioned_unbound, own_name_claim_false), and if several matchers of `AnyOf` match, the last one wins (later_wins, first_wins_claim_false). |
| C172 | Loading the extension puts cells under ipyflow, unloading it ends this | partial | `Loading.wanted_tracked`, `Loading.left_after`, `Loading.stays_out`, `Loading.tracked_partial`, `Loading.unload_missed`, `Loading.gone_later`, `Loading.flat_returns`, `Loading.untracked_returns`, `Loading.wanted_returns`, `Loading.nested_breaks`, `Loading.kernel_wanted`, `Loading.client_told`, `Loading.kernel_left`, `Loading.kernel_kept`, `Loading.own_tracked`, `Loading.own_unload_raises`, `Loading.track_claim_false` | Cells after loading are always run with ipyflow and the client is always told what was asked for last; cells are run with ipyflow if and only if it was asked for last as long as no cell begun without ipyflow loads and unloads it (tracked_partial). The full claim is false (track_claim_false): if one cell does both, the next cell is still run with ipyflow (unload_missed; the one after it is not, gone_later); if the extension is unloaded in code run as a cell of its own, e.g. under %%capture, the run of the outer cell raises (nested_breaks) and the kernel keeps ipyflow's class (kernel_kept); in sessions started with ipyflow's own classes, unloading raises (own_unload_raises). |
| C173 | Registered tracers survive reloading the extension | partial | `Loading.keep_partial`, `Loading.own_keeps`, `Loading.reload_same`, `Loading.register_has`, `Loading.load_forgets`, `Loading.keep_claim_false` | Tracers stay registered in cells that do not load the extension, in all cells run with ipyflow without nested runs, and in all sessions started with ipyflow; reloading changes nothing. The full claim is false (keep_claim_false): loading the extension into a shell without ipyflow forgets all tracers but those of the configuration (load_forgets). |
| C174 | deps(e), code(e), timestamp(e) and the like speak about the variable or part that e denotes | partial | `Lifted.speaks_sound`, `Lifted.name_speaks`, `Lifted.attr_speaks_partial`, `Lifted.attr_raises`, `Lifted.item_speaks`, `Lifted.item_missed`, `Lifted.index_wrong`, `Lifted.index_raises`, `Lifted.option_wrong`, `Lifted.choice_raises`, `Lifted.bin_speaks`, `Lifted.later_raises`, `Lifted.untraced_raises`, `Lifted.literal_raises`, `Lifted.Witness.lift_claim_false` | Violated: deps(l[i].n) looks for n in l and takes i for a candidate, so that it speaks about i if the value is the same object and otherwise raises; (x or y).n speaks about a global variable n; a path on which another symbol has the same object raises; arguments not evaluated first, and all arguments when the tracer is off, are not exchanged, so that the function raises. Proved: what is spoken about has the object of the argument and is mentioned by its expression; variables, paths of attributes and constant subscripts without another symbol of the same object, and subscripts that the tracer recorded. |
| C175 | A value depends on what properties, operators and other functions read that run without being called in the text | partial | `Implicit.reads_partial`, `Implicit.late_found`, `Implicit.inner_lost`, `Implicit.index_lost`, `Implicit.operation_lost`, `Implicit.before_lost`, `Implicit.operand_lost`, `Implicit.result_lost`, `Implicit.again_lost`, `Implicit.Witness.reads_claim_false` | Violated: what a property reads is lost if another attribute follows (o.p.q), if it stands in brackets (l[o.p]) or in an operation within an argument (f(o.p + b)); what an operator defined in the notebook reads is lost for operands that are variables; what a function reads is lost when an attribute of its result is read; and what a function reads that ran before in the cell. Proved: nothing is lost where functions run only by calls, by the last attribute or subscript of a chain and by chains that are arguments, each function once in a cell. |
| C176 | `%flow <command> <argument> > <file>` writes to the file what the command prints without it | partial | `Redirect.redirected_partial`, `Redirect.direct_printed`, `Redirect.argument_cut`, `Redirect.appended`, `Redirect.answer_lost`, `Redirect.odd_word`, `Redirect.second_blank`, `Redirect.class_tag`, `Redirect.Witness.redirect_claim_false` | Proved for every word besides those that print on their own, every argument without `>` and every file that can be opened. Violations proved for all inputs: `show_tags` and `register_annotations` print although a file is named and write nothing (direct_printed); an argument is cut at its first `>` (argument_cut, `%flow tag a>b` tags `a`); `>> f` writes a file named `> f` (appended); with no file name or one that cannot be opened the command has taken effect, the answer is lost and an exception raised (answer_lost); `dag>f`, a tab or two blanks give only the usage (odd_word, second_blank). The dashed `make-slice` misses the treatment of tags given as classes. |
| C177 | When a cell raises, the client is told and the reactive run ends | partial | `Failing.told_iff`, `Failing.failures_untold`, `Failing.told_stops`, `Failing.failed_goes_on`, `Failing.failed_same`, `Failing.stopped_unasked`, `Failing.setup_unbound`, `Failing.rewriter_untold`, `Failing.counter_counts`, `Failing.raised_isError`, `Failing.uncompiled_no_error`, `Failing.Witness.told_claim_false`, `Failing.Witness.stop_claim_false` | The claim is false in both directions (told_claim_false, stop_claim_false). Proved for all histories: the kernel says that the last execution was an error exactly if ipyflow itself raised in it (told_iff), so what cells raise is never told (failures_untold) and the client goes on exactly as if they had not (failed_goes_on, failed_same), while a cell that ran through ends the reactive run if a hook raised afterwards (stopped_unasked). The client does stop when told (told_stops); the counter of exceptions counts those of ipyflow (counter_counts); code that could not be compiled does not count as an error of the cell (uncompiled_no_error). |
| C178 | The names in a running function mean what they mean in Python | partial | `Callee.callee_partial`, `Callee.taken_for_named`, `Callee.busy_wrong`, `Callee.argument_wrong`, `Callee.first_statement_wrong`, `Callee.lambda_wrong`, `Callee.returned_right`, `Callee.rebound_wrong`, `Callee.decorated_wrong`, `Callee.earlier_wrong`, `Callee.global_wrong`, `Callee.Witness.callee_claim_false` | Proved of tidy histories: no variable is bound twice, and functions are called by variables that have them from their definitions, or are the only functions of their statements. False in general, proved for all cases: the tracer goes by the variable the last call was written with, so a property or an operator that runs for an argument, or in the first statement of a body, and a function called with the value of a lambda are taken for another function; variables bound anew keep the scope of the old function; decorated functions, all but the last function of a statement and functions declared global are looked up in the wrong scope. |
| C179 | The variables of a generator stay its own when it goes on after a yield | partial | `Resume.generators_partial`, `Resume.gone_on_stores`, `Resume.gone_on_wrong`, `Resume.own_not_recorded`, `Resume.gone_on_in_call`, `Resume.gone_on_reads`, `Resume.gone_on_reads_wrong`, `Resume.again_unrecorded`, `Resume.Witness.generators_claim_false` | Proved where generators touch no variables after their first yield, whatever else they do. False otherwise, proved for all such histories: the statement of the yield is not known to belong to a function, so the rest of the generator is taken to run in the scope of the code that resumes it; its assignments are recorded as assignments to the notebook's (or the caller's) variables of that name, its reads as reads of those, and from the second time at the same yield nothing is recorded. |
| C180 | The cells reported as newly ready are exact | proved | `Sched.new_ready_exact`, `Sched.ready_told` | The cells to check are assumed to be listed once each. |
| C181 | The cells that reactive marks force to run are exact | proved | `Sched.forced_exact` | Which reads count as reactive or cascading is in C94 and C118. |
| C182 | The links reported between cells are exact | proved | `Sched.links_exact` | Exact over the recorded entries; which entries are recorded is in C11, C12 and C57. |
| C183 | What the client has to tell the kernel reaches it in order after a restart | partial | `Resend.unbroken_in_order_partial`, `Resend.at_most_once`, `Resend.nothing_after_disconnect`, `Resend.first_overtaken`, `Resend.never_in_order`, `Resend.kept_is_forgotten`, `Resend.in_order_claim_false` | In order while the kernel lives; at most once always. Violated after a restart: the first message is kept until the new channel is answered, while later ones are sent at once, so it is overtaken by them and by the message about the active cell; a second restart before the answer drops it for good. |
| C184 | When all cells that were run together have finished, the client asks what to run next | partial | `Rounds.asked_iff`, `Rounds.asked_once`, `Rounds.executed_iff`, `Rounds.asked_partial`, `Rounds.twice_never_asked`, `Rounds.overlap_never_asked`, `Rounds.text_never_asked`, `Rounds.rerun_never_asked`, `Rounds.asked_claim_false` | Exactly once when every cell has ended as the client waited for it. Violated: if a cell is in the round twice (in lazy mode with batches, a cell that is both forced and drawn along), is no code cell, or is run again before its reply, one promise is rejected and no schedule is ever asked for, so the reactive run stops. |
| C185 | Code transformers that a cell registers stay registered | partial | `Addons.kept_partial`, `Addons.none_left`, `Addons.goes_through`, `Addons.traced_undone`, `Addons.extension_lost`, `Addons.Witness.kept_claim_false` | Nothing of ipyflow's own is ever left in the lists, and changes made in runs that are not traced are kept. Violated: the lists are replaced during a traced cell and the old ones put back at its end, so whatever the cell registered or removed is undone; an extension loaded in a traced cell counts as loaded and loading it again does nothing. |
| C186 | Ending an embedded session gives the program its shell and prompts back | partial | `Embed.restored_partial`, `Embed.restored_none`, `Embed.raising_left`, `Embed.prompts_left`, `Embed.unloaded_lost`, `Embed.Witness.restored_claim_false` | Shell and prompts come back after any number of sessions that do not raise, whatever is embedded in them. Violated: a session that raises (%exit_raise) leaves its own shell as that of the program; a program without prompts has some afterwards; after %unload_ext ipyflow the shell is still registered with ipyflow's class, so embed raises MultipleInstanceError and the program is left without a shell. |
| C187 | Cells marked as reactive for a tag are found by it | proved | `Registry.Marks.reactive_lookup_exact` | For every history of the registry's operations, against a story that knows only what the user did (no versions, counters or tables). Hypothesis: the host's counters run ahead of the kernel's, as in the other theorems about the registry. |
| C188 | Running a slice runs that slice only, and has no effect on later runs | partial | `Bumps.forced_run_partial`, `Bumps.forced_next_partial`, `Bumps.slice_only`, `Bumps.cascade_once`, `Bumps.swallowed`, `Bumps.text_swallowed`, `Bumps.overlap_swapped`, `Bumps.Witness.forced_claim_false` | Holds as long as slices are run with a code cell active and not while cells run reactively one at a time, and nothing overlaps. Violated: in that mode the commands run nothing but count, so that each use makes the forced cells of one later run be discarded (for any number of uses); the same with a cell active that is not a code cell; and if a slice is run while other cells are running, the forced cells of those are discarded and those of the slice run. |
| C189 | The command that runs what is stale runs the cells edited since they were run | partial | `Dirty.stale_partial`, `Dirty.stale_new_partial`, `Dirty.run_settles`, `Dirty.taken_back`, `Dirty.reconnected`, `Dirty.too_soon`, `Dirty.Witness.stale_claim_false` | Holds if cells are only run when the notebook is at rest, and whenever it comes to rest with a text it did not have before. Violated: a cell that is edited, run and edited back before the notebook comes to rest is never taken to be edited; nor is any cell after a new connection until the notebook comes to rest again, nor within half a second of an edit. |
| C190 | Calls of a function are attributed to the definition that made it | partial | `Origin.numbered`, `Origin.texts_partial`, `Origin.skipped_lost`, `Origin.elsewhere`, `Origin.others_keep`, `Origin.Witness.origin_claim_false` | Proved where the names of the code have the numbers of the runs (numbered), and with names by text as long as the last run of the text was not skipped (texts_partial); runs of other texts change nothing (others_keep). Violated with names by text: after a skipped run the functions of the text are lost or taken to be in the statement run in place of the cell (skipped_lost, Witness.origin_claim_false), and the position moves to the last run of the text in whatever cell (elsewhere). |
| C191 | Usages of several runs of the same cell are reported | partial | `Phantom.found_partial`, `Phantom.own_wrong`, `Phantom.fails`, `Phantom.switch_only_breaks`, `Phantom.Witness.phantom_claim_false` | Proved for what is computed per cell, for other cells than the cell itself, if all used symbols were set by runs (found_partial). Violated: the cell itself is found with another cell's run (own_wrong), a symbol no run has set makes the whole check fail (fails), and the answer never has what was computed (switch_only_breaks, Witness.phantom_claim_false). |
| C192 | The attribute of an object depends on the attribute of the class that its value comes from | partial | `Inherit.direct_partial`, `Inherit.base_lost`, `Inherit.assigned_depends`, `Inherit.hidden_depends`, `Inherit.assigned_after_read`, `Inherit.Witness.inherit_claim_false` | An attribute that is read for the first time, or the first time after it was deleted, when its value is the one of the object's own class depends on exactly that (direct_partial), and an assignment after a read removes the dependency (assigned_after_read). Violated: if the value comes from a class further up, no dependency on a class is recorded, then or later (base_lost, inherit_claim_false); an attribute of an object that is assigned before it is read, or set by untraced code, depends on the attribute of the class although its value is its own (assigned_depends, hidden_depends). |
| C193 | Reusing a memoized run leaves what running the cell left | partial | `Memo.reuse_partial`, `Memo.reuse_value`, `Memo.reuse_violated` | Each variable that the reused run assigned is bound to the same object again and counts as updated by the present run, all others are left alone, and the value is the one of then if no run in between changed the object (reuse_partial). Violated otherwise: the variable has whatever the object holds now (reuse_value), as after x = [] in a memoized cell, x.append(1) elsewhere, and the memoized cell again (reuse_violated). |
| C194 | The range reported for an out-of-order use marks the use | partial | `Span.start_partial`, `Span.end_exact`, `Span.last_exact`, `Span.one_char_empty`, `Span.Witness.span_claim_false` | The start is right exactly if there is only ASCII before the use in its line (start_partial). Violated otherwise, since bytes are sent for characters. The end is right exactly if there is, up to it, one character of two bytes besides ASCII, hence never in lines of ASCII (end_exact, span_claim_false), since one is subtracted; the range of a name of one letter is empty (one_char_empty). For those who count the last character in, the end is right exactly in ASCII (last_exact). |
| C195 | An element that was not seen being assigned counts as changed when its object was | partial | `Unseen.not_older`, `Unseen.exact_partial`, `Unseen.stored_newer`, `Unseen.bound_newer`, `Unseen.Witness.unseen_claim_false` | The element never counts as older than its last change (not_older), and it counts as exactly as new if since then nothing was stored in the object and no variable was bound to it (exact_partial). Violated otherwise: after a store to another element, or the binding of a further variable, it counts as at least as new as that (stored_newer, bound_newer, unseen_claim_false). |
| C196 | Switches understand on and off and nothing else | partial | `Settings.trace_exact`, `Settings.trace_count`, `Settings.highlights_exact`, `Settings.syntax_partial`, `Settings.syntax_ignored`, `Settings.syntax_suffix`, `Settings.only_kept` | Proved for messages (trace_exact, trace_count) and highlights (highlights_exact). Violated by the syntax transforms: enable, disable and words in upper case are ignored (syntax_ignored), and every word that merely ends in on or off is obeyed (syntax_suffix); with the four exact words, and words that end in none of them, all is as expected (syntax_partial). only_kept shows that the mode with syntax transforms only is left by %flow on or enable alone. |
| C197 | The line that makes a cell memoized is understood | partial | `Header.memoized_partial`, `Header.not_memoized`, `Header.other_magic`, `Header.quote_fails`, `Header.help_exits`, `Header.Witness.memoize_claim_false` | Proved for documented options and words that are no options (memoized_partial), and for cells that do not begin with a percent sign (not_memoized). Violated: a magic whose name merely begins with %%memoize is taken for it and its line is dropped (other_magic), a word with a single quotation mark raises an error (quote_fails), -h and --help ask the program to exit (help_exits). |
| C198 | Commands that ask about a variable answer about that variable | partial | `Asked.known_partial`, `Asked.answers_nearest`, `Asked.index_dropped`, `Asked.mixed_up`, `Asked.call_answers_function`, `Asked.text_fails`, `Asked.Witness.asked_claim_false` | Proved for what is known, as long as no object has an attribute and an element of the same name (known_partial). Violated: about what is not known the answer is about the longest known part (answers_nearest), names and calculations between brackets are passed over, so that x[i].a is answered with x.a (index_dropped), attributes and elements of the same name are mixed up (mixed_up), calls are answered with the function (call_answers_function), and comments, other statements and other expressions make the command fail (text_fails). |
| C199 | The command that lists waiting variables lists exactly those | partial | `Waiters.global_partial`, `Waiters.all_partial`, `Waiters.refused`, `Waiters.rest_ignored`, `Waiters.one_fails`, `Waiters.Witness.show_claim_false` | Proved where all symbols gone through can be judged: without words or with global exactly the global variables that wait and have a name are named, each once (global_partial), with all exactly the symbols that wait and have a name (all_partial); a line that begins with another word is refused (refused). Violated: what follows the first word is passed over instead of refused (rest_ignored), and one symbol whose waiting cannot be judged, even one without a name, makes the whole command fail (one_fails). What is missing: how waiting is judged (C87, C88), the text of the answer. |

## Axioms of the theorems

From `#print axioms` for every theorem named in `MANIFEST.json`.

* no axioms: `Comm.Placeholder.active_id_violated`, `Connect.elsewhere`, `Connect.forgotten`, `Connect.no_kernel`, `Connect.too_early`, `Copy.comparison`, `ListNs.delete_violated`, `ListNs.insert_violated`, `ListNs.negative_name_violated`, `Matchers.all_raises`, `Matchers.children_raises`, `Matchers.match_claim_false`, `Matchers.ref_never`, `Ref.assigned_violated`, `Ref.eq_violated`, `Session.late_after_batch`, `Session.late_after_deferred`, `Session.late_direct`, `Session.lingers`, `Session.slice_lost`, `Session.switched`, `Session.twice`

* `propext`: `Age.covers_violated`, `Age.covers_violated_same`, `Age.start_exact`, `Annot.args_violated_receiver`, `Annot.args_violated_self`, `Annot.args_violated_star`, `Args.compound_lost`, `Args.default_of_another`, `Args.default_rebound`, `Args.keyword_for_required`, `Args.keyword_only_lost`, `Args.receiver_shift`, `Args.same_cell_lost`, `Args.unbound_shift`, `Asked.Witness.asked_claim_false`, `Asked.call_answers_function`, `Asked.text_fails`, `Bind.annotation_unseen`, `Bind.augmented_misses_walrus`, `Bind.bare_annotation_invents`, `Bind.base_walrus_crashes`, `Bind.call_unseen`, `Bind.class_unseen`, `Bind.cond_unseen`, `Bind.default_walrus_crashes`, `Bind.delete_misses_after_walrus`, `Bind.delete_misses_tuple`, `Bind.handler_unseen`, `Bind.import_misses_dotted`, `Bind.lambda_imagined`, `Bind.lambda_invents`, `Bind.lambda_unseen`, `Bind.match_misses_capture`, `Bind.not_evaluated_invents`, `Bind.order_violated`, `Bind.while_imagined`, `Bind.with_misses_tuple`, `Bind.with_unseen`, `Bumps.Witness.forced_claim_false`, `Chain.clean_after`, `Chain.enclosing_unused`, `Chain.first_read_unused`, `Chain.slice_call_detached`, `Chain.slice_store_lost`, `Chain.slice_unloaded`, `Chain.value`, `Comm.active_cleared_internal`, `Comm.active_cleared_partial`, `Comm.active_violated_dropped`, `Comm.response_partial`, `Comm.response_violated_dropped`, `Comm.response_violated_interrupt`, `Comm.response_violated_junk`, `Comm.response_violated_type`, `Comm.response_violated_unserialisable`, `Comm.unknown_no_response`, `Copy.ampersand`, `Copy.double_quote`, `Copy.emoji`, `Copy.half`, `Copy.percent_sign`, `Copy.single_quote`, `Dag.Import.import_violated`, `Debounce.flag_violated_died`, `Debounce.flag_violated_running`, `Debounce.outstanding_violated`, `Declare.run_forgets`, `Embed.Witness.restored_claim_false`, `Embed.unloaded_lost`, `Failing.Witness.told_claim_false`, `Failing.failures_untold`, `Failing.raised_isError`, `Failing.rewriter_untold`, `Failing.setup_unbound`, `Failing.told_iff`, `Failing.uncompiled_no_error`, `Fails.called`, `Fails.default_lost`, `Fails.digits_lost`, `Fails.mapping_lost`, `Fails.matrix_lost`, `Fails.method_lost`, `Fails.negative_kept`, `Fails.record_lost`, `Frames.not_resumed`, `Interrupt.invalid_unchanged`, `Interrupt.others_unchanged`, `Lifted.bin_speaks`, `Lifted.later_raises`, `Lifted.literal_raises`, `Lifted.untraced_raises`, `ListNs.remove_absent`, `Literal.unpack_violated`, `Literal.unpack_violated_call`, `Literal.unpack_violated_unknown`, `Loading.client_told`, `Loading.flat_returns`, `Loading.gone_later`, `Loading.keep_partial`, `Loading.kernel_kept`, `Loading.kernel_left`, `Loading.kernel_wanted`, `Loading.left_after`, `Loading.nested_breaks`, `Loading.own_keeps`, `Loading.own_tracked`, `Loading.own_unload_raises`, `Loading.register_has`, `Loading.reload_same`, `Loading.stays_out`, `Loading.track_claim_false`, `Loading.untracked_returns`, `Loading.wanted_returns`, `Loading.wanted_tracked`, `Naming.deleted_wrong`, `Naming.digits_clash`, `Naming.word_unquoted`, `Nest.outvar_no_name`, `Nest.outvar_partial`, `Nest.outvar_spurious`, `Output.assign_loses`, `Output.cell_output_violated`, `Parts.never_warns`, `Pending.failed_recorded`, `Pending.loop_crash`, `Pending.loop_other`, `Pending.lost_callback`, `Pending.lost_dropped`, `Pending.lost_failing`, `Pending.lost_shell`, `Pending.other_result`, `Phantom.switch_only_breaks`, `Ref.chain_called_element`, `Ref.chain_loses_sign`, `Ref.chain_loses_start`, `Ref.chain_skips`, `Rval.deps_no_member`, `Rval.deps_violated_callee`, `Rval.deps_violated_comprehension`, `Rval.deps_violated_extra`, `Rval.deps_violated_index`, `Rval.deps_violated_object`, `Rval.deps_violated_shadow`, `Rval.deps_violated_slice`, `Rval.deps_violated_star`, `Rval.deps_violated_unrecorded`, `Rval.usages_violated`, `Rval.usages_violated_inner`, `Selfuse.self_update_wrong`, `Session.asks_counted`, `Shown.Witness.empty_memo`, `Steps.still_known`, `Steps.unnoted`, `Target.declared_deleted`, `Target.deleted_stays`, `Target.global_read_shadowed`, `Target.nonlocal_in_class`, `Unseen.Witness.unseen_claim_false`, `Versions.last_by_number`, `Versions.order_changed`, `Versions.second_name_missing`, `Wait.isWaiting_violated`, `Writes.container_unrecorded`, `Writes.element_unrecorded`

* `Quot.sound`, `propext`: `Addons.Witness.kept_claim_false`, `Addons.extension_lost`, `Addons.goes_through`, `Addons.kept_partial`, `Addons.none_left`, `Addons.traced_undone`, `Age.covers_partial`, `Age.exact_violated_list`, `Age.names_partial`, `Age.names_violated`, `Annot.args_partial`, `Annot.args_violated_two`, `Annot.choose_partial`, `Annot.choose_violated`, `Annot.choose_violated_order`, `Annot.stubs_violated_modules`, `Around.above_partial`, `Around.above_sound`, `Around.always_answers`, `Around.at_zero`, `Around.below_partial`, `Around.below_sound`, `Around.gone_around`, `Around.hidden_above`, `Around.hidden_below`, `Around.untold_below`, `Around.wrong_below`, `Asked.index_dropped`, `Asked.known_partial`, `Asked.mixed_up`, `Assigned.link_claim_false`, `Bind.inner_first_partial`, `Bind.reads_recorded_partial`, `Bumps.forced_next_partial`, `Bumps.forced_run_partial`, `Calls.Witness.changed_wrong`, `Calls.Witness.one_cell_raises`, `Chain.known_used`, `Chain.missing_recorded`, `Chain.none_confused`, `Chain.slice_dependency_lost`, `Checked.created_wrong`, `Checked.off_unmarked`, `Checked.parts_wrong`, `Client.covered_violated`, `Client.once_violated`, `Client.once_violated_forced`, `Comm.Placeholder.assign_violated`, `Comm.register_keeps`, `Comm.responses_at_most_one`, `Connect.changed`, `Connect.released`, `Connect.shut_down`, `Content.deleted`, `Content.run_and_taken_back`, `Copy.shown_iff`, `Dag.Import.import_partial`, `Dag.dag_cells_violated`, `Dag.dag_cycle_violated`, `Debounce.executions_exact`, `Debounce.fire_enabled`, `Debounce.flag_complete_partial`, `Debounce.flag_sound`, `Debounce.held_back_partial`, `Debounce.held_back_violated`, `Debounce.outstanding_held_back_partial`, `Debounce.setting_restored_partial`, `Debounce.setting_violated`, `Debounce.setting_violated_user`, `Declare.declared_sound`, `Dirty.Witness.stale_claim_false`, `Dirty.run_settles`, `Dirty.stale_new_partial`, `Dirty.stale_partial`, `Dirty.taken_back`, `Dirty.too_soon`, `Embed.prompts_left`, `Embed.raising_left`, `Embed.restored_none`, `Embed.restored_partial`, `Extern.bound_append_fails`, `Extern.bound_unrecorded`, `Extern.bytearray_unrecorded`, `Extern.clear_fails`, `Extern.depends_on_args`, `Extern.first_arg_recorded`, `Extern.first_arg_unrecorded`, `Extern.later_arg_exact`, `Extern.only_own`, `Extern.quiet_recorded`, `Extern.reading_unrecorded`, `Extern.value_unrecorded`, `Extern.valued_unrecorded`, `Failing.counter_counts`, `Failing.failed_same`, `Failing.stopped_unasked`, `Failing.told_stops`, `Fails.call_ready_iff`, `Fails.dropped_partial`, `Fails.method_iff`, `Fails.ready_iff`, `Fails.span`, `Fails.span_only`, `Frames.loop_result`, `Frames.repeated_call`, `Frames.second_return`, `Funct.assign_and_expr`, `Funct.called_elsewhere`, `Funct.comment_last`, `Funct.continued`, `Funct.module_name`, `Funct.none_passed`, `Funct.positional`, `Funct.two_last`, `Funct.wide_expr`, `Garbage.reused_lost`, `Garbage.temporary_kept`, `Hold.forgotten`, `Hold.not_held_after_moving`, `Hold.old_below_new`, `Hold.reported_partial`, `Hold.result_of_another`, `Hold.result_twice`, `Hold.run_again`, `Hold.shows_nothing_printed`, `Hold.shows_own`, `Hold.shows_previous_partial`, `Hold.values_eq`, `Hover.deleted_leaves`, `Implicit.Witness.reads_claim_false`, `Implicit.again_lost`, `Implicit.before_lost`, `Implicit.index_lost`, `Implicit.inner_lost`, `Implicit.late_found`, `Implicit.operand_lost`, `Implicit.operation_lost`, `Implicit.result_lost`, `Imports.kept_partial`, `Imports.recorded_partial`, `Imports.recorded_single`, `Inherit.Witness.inherit_claim_false`, `Inherit.assigned_after_read`, `Inherit.assigned_depends`, `Inherit.base_lost`, `Inherit.direct_partial`, `Inherit.hidden_depends`, `Lambda.default_changed`, `Lambda.left_alone`, `Lambda.live_partial`, `Lambda.new_object`, `Lambda.not_recognised`, `Lambda.quiet_partial`, `Lambda.stale_cell`, `Lambda.stale_global`, `Lambda.still_traced`, `Lambda.untraced`, `Lifted.Witness.lift_claim_false`, `Lifted.attr_raises`, `Lifted.attr_speaks_partial`, `Lifted.choice_raises`, `Lifted.index_raises`, `Lifted.index_wrong`, `Lifted.item_missed`, `Lifted.item_speaks`, `Lifted.name_speaks`, `Lifted.option_wrong`, `Lifted.speaks_sound`, `ListNs.lookup_follows_partial`, `Literal.dict_partial`, `Literal.dict_violated`, `Literal.literal_partial`, `Literal.literal_violated`, `Live.Work.call_chain_exact`, `Live.Work.call_chain_terminates`, `Loading.keep_claim_false`, `Loading.load_forgets`, `Lookup.chain_violated`, `Lookup.chain_violated_missing`, `Lookup.lookup_class`, `Lookup.lookup_violated`, `Lookup.qualified_iff`, `Loops.Witness.accumulator_lost`, `Loops.Witness.condition_lost`, `Loops.Witness.empty_loop_takes`, `Loops.Witness.later_read_lost`, `Loops.Witness.mention_takes`, `Matchers.all_binds_own`, `Matchers.any_binds_own`, `Matchers.first_wins_claim_false`, `Matchers.later_wins`, `Matchers.needed_bound`, `Matchers.order_matters`, `Matchers.own_name_claim_false`, `Memo.comparable_sound_arrays_partial`, `Memo.comparable_sound_partial`, `Memo.comparable_violated`, `Memo.memo_violated`, `Memo.pyEq_dict_iff`, `Memo.pyEq_set_iff`, `Memo.reuse_partial`, `Memo.reuse_value`, `Memo.reuse_violated`, `Naming.shown_partial`, `Nest.after_call_unrecorded`, `Nest.attributed_partial`, `Nest.code_partial`, `Nest.earlier_uses_lost`, `Nest.outdated_unrecorded`, `Nest.recorded_now_partial`, `Nest.recorded_partial`, `Nest.rerun_stale`, `Nest.taken_over`, `Nest.use_lost`, `Origin.elsewhere`, `Origin.numbered`, `Output.assign_breaks`, `Output.cell_output_partial`, `Output.displays_forwarded`, `Output.nested_violated`, `Output.restored_partial`, `Output.text_forwarded_partial`, `Output.thread_violated`, `Paint.asked`, `Paint.kept`, `Paint.text_keeps_slice`, `Paint.told`, `Pending.exact_partial`, `Pending.loop_args_partial`, `Pending.recorded_partial`, `Pending.sound`, `Phantom.Witness.phantom_claim_false`, `Place.ancestor_confused`, `Place.augmented_confused`, `Place.chained_confused`, `Place.cycle_made`, `Place.index_dependency_lost`, `Place.negative_confused`, `Place.never_ends`, `Place.unpacked_confused`, `React.block_hides`, `React.block_lost`, `React.blocked_variable_partial`, `React.cascade_broken`, `React.late_block`, `React.lost_wide`, `React.read_reaches_partial`, `React.root_blocked`, `React.sibling_forced`, `React.store_reaches_partial`, `React.wider_than_marked`, `Ready.ready_violated`, `Rebind.absent_stays`, `Rebind.kept_partial`, `Rebind.named_alive`, `Rebind.nothing_lost`, `Rebind.others_kept`, `Rebind.property_fails`, `Rebind.recorded_partial`, `Recall.first_fails`, `Ref.assigned_partial`, `Ref.chain_named_partial`, `Ref.chain_unknown_last`, `Ref.marks_partial`, `Ref.marks_violated`, `Registry.Pos.at_position_exact`, `Registry.Pos.iterate_violated`, `Registry.Pos.vanished_last`, `Resend.at_most_once`, `Resend.first_overtaken`, `Resend.in_order_claim_false`, `Resend.kept_is_forgotten`, `Resend.never_in_order`, `Resend.nothing_after_disconnect`, `Resend.unbroken_in_order_partial`, `Resume.Witness.generators_claim_false`, `Resume.again_unrecorded`, `Resume.generators_partial`, `Resume.gone_on_in_call`, `Resume.gone_on_reads`, `Resume.gone_on_reads_wrong`, `Resume.gone_on_stores`, `Resume.gone_on_wrong`, `Resume.own_not_recorded`, `Resync.element_lost`, `Resync.elements_right`, `Resync.empty_fails`, `Resync.listed`, `Resync.others_kept`, `Resync.succeeds_partial`, `Resync.synced`, `Rounds.asked_claim_false`, `Rval.deps_member_partial`, `Scoped.child_violated_threads`, `Scoped.index_violated`, `Session.asked_partial`, `Session.mode_partial`, `Session.never_again`, `Session.returns_partial`, `Session.run_partial`, `Session.slice_partial`, `Slice.blacken_keeps_blocks`, `Span.one_char_empty`, `Steps.cell_dealt_with_partial`, `Steps.dealt_with_once`, `Steps.dealt_with_partial`, `Steps.failed_header`, `Steps.later_iteration`, `Steps.loop_unnoted`, `Steps.noted_partial`, `Steps.only_noted`, `Store.between_violated`, `Store.pull_diverges`, `Store.pull_ends_violated`, `Store.pull_exact_violated`, `StubFile.bad_file_stops`, `StubFile.blocks_sound`, `StubFile.file_alone_inert`, `StubFile.in_force_sound`, `StubFile.long_condition_stops`, `StubFile.nothing_else_evaluated`, `StubFile.number_condition_stops`, `Tagged.claim_false`, `Tagged.fails_iff`, `Tagged.listed_iff`, `Tagged.listed_partial`, `Tagged.none_left_out`, `Tagged.old_number_ignored`, `Tagged.renamed_fails`, `Tagged.taken_away_wrong`, `Tagged.unnamed`, `Tagged.unrun_nothing`, `Target.far_stale`, `Target.nonlocal_far`, `Target.nonlocal_unknown`, `Target.read_partial`, `Target.recorded_partial`, `Told.readers_claim_false`, `Told.refresh_claim_false`, `Told.users_claim_false`, `Versions.name_counts`, `Versions.timestamp_exact`, `Versions.timestamp_moved`, `Versions.timestamp_partial`, `Wait.isWaiting_exact`, `Wait.isWaiting_total_uncleared`, `Wait.waits_any_order`, `Watch.Witness.loop_missed`, `Watch.Witness.raising_late`, `Watch.Witness.second_call_missed`, `Writes.list_unrecorded`, `Writes.only_written`, `Writes.parts_recorded`, `Writes.static_or_dynamic`, `Writes.static_origin`, `Writes.stays_dynamic`, `Writes.written_recorded_partial`

* `Classical.choice`, `Quot.sound`, `propext`: `Age.exact_violated_sibling`, `Age.update_exact_partial`, `Age.update_terminates`, `Annot.stubs_partial`, `Annot.stubs_sound`, `Annot.stubs_violated_twice`, `Args.default_instead`, `Args.only_parameters`, `Args.only_received_partial`, `Args.parameter_found_partial`, `Args.positional_only_lost`, `Args.received_partial`, `Args.receiver_lost`, `Asked.answers_nearest`, `Assigned.annotation_found`, `Assigned.attribute_found`, `Assigned.default_found`, `Assigned.found_claim_false`, `Assigned.found_iff`, `Assigned.found_partial`, `Assigned.imports_missed`, `Assigned.index_found`, `Assigned.link_goes`, `Assigned.link_partial`, `Assigned.link_stays`, `Assigned.loop_target_found`, `Assigned.other_forms_stay`, `Assigned.own_value_missed`, `Assigned.shown_iff`, `Assigned.statically_iff`, `Bind.annotation_misses_walrus`, `Bind.assignment_misses_walrus`, `Bind.bindings_recorded_partial`, `Bind.class_misses_walrus`, `Bind.import_misses_star`, `Bind.loop_misses_walrus`, `Bind.only_reads_recorded_partial`, `Bind.unpacking_misses_list_after_star`, `Bind.while_invents`, `Bind.with_misses_walrus`, `Bumps.cascade_once`, `Bumps.overlap_swapped`, `Bumps.slice_only`, `Bumps.swallowed`, `Bumps.text_swallowed`, `Callee.Witness.callee_claim_false`, `Callee.argument_wrong`, `Callee.busy_wrong`, `Callee.callee_partial`, `Callee.decorated_wrong`, `Callee.earlier_wrong`, `Callee.first_statement_wrong`, `Callee.global_wrong`, `Callee.lambda_wrong`, `Callee.rebound_wrong`, `Callee.returned_right`, `Callee.taken_for_named`, `Calls.code_runs_alone_partial`, `Calls.code_unknown`, `Calls.second_call_stale`, `Calls.values_right`, `Chain.index_confused`, `Chain.last_loaded_partial`, `Chain.loaded_only_partial`, `Chain.others_kept_partial`, `Chain.recorded_partial`, `Chain.target_right_partial`, `Chain.variables_kept_partial`, `Checked.answered_iff`, `Checked.claim_false`, `Checked.edited_wrong`, `Checked.marked_iff_partial`, `Checked.quiet_same`, `Checked.twice_wrong`, `Checked.unrun_unmarked`, `Client.bounded_partial`, `Client.covered_partial`, `Client.once_partial`, `Clock.Runs.clock_claim_false`, `Clock.Runs.goes_back`, `Clock.Runs.runs_partial`, `Clock.cell_precedes`, `Clock.clock_partial`, `Clock.eq_other`, `Clock.max_exact`, `Clock.order_strict_total`, `Comm.Placeholder.placeholder_exact`, `Comm.Placeholder.placeholder_ids`, `Connect.known`, `Connect.one_notebook`, `Connect.own_partial`, `Connect.run_partial`, `Connect.unloaded`, `Content.back_again`, `Content.blocked`, `Content.changed_while_running`, `Content.heard`, `Content.heard_iff`, `Content.kept`, `Content.settled_partial`, `Content.taken_back`, `Content.turned_into_text`, `Content.unassigned_partial`, `Content.unused`, `Content.used`, `Copy.copied_iff`, `Dag.dag_acyclic_partial`, `Dag.dag_cells_partial`, `Dag.dag_exact`, `Dag.dag_mutual`, `Dag.dag_outputs`, `Dag.dag_raises_iff`, `Dag.dag_reads_partial`, `Debounce.burst_ends`, `Debounce.burst_not_split`, `Declare.analysed_partial`, `Declare.answered_iff`, `Declare.both_declared_partial`, `Declare.declared_partial`, `Declare.known_iff`, `Declare.never_answered`, `Declare.nothing_ignored`, `Declare.taken_back_stays`, `Declare.unanswered_unknown`, `Dirty.reconnected`, `Edges.edges_symmetric_partial`, `Edges.edges_symmetric_violated`, `Edges.no_orphan_children`, `Edges.no_self_parent`, `Edges.no_two_cycle_partial`, `Edges.stmt_override_renames`, `Edges.two_cycle_violated`, `Extern.container_partial`, `Failing.Witness.stop_claim_false`, `Failing.failed_goes_on`, `Fails.kept_partial`, `Fails.ready_partial`, `Frames.attributed_partial`, `Frames.frames_exact`, `Frames.results_partial`, `Funct.gives_partial`, `Funct.no_such_name`, `Funct.parameters`, `Garbage.cycle_kept`, `Garbage.element_kept`, `Garbage.freed_partial`, `Garbage.held_partial`, `Garbage.kept_partial`, `Garbage.known_partial`, `Garbage.marking_ends_partial`, `Garbage.returning_lost`, `Garbage.twice_kept`, `Header.Witness.memoize_claim_false`, `Header.help_exits`, `Header.memoized_partial`, `Header.not_memoized`, `Header.other_magic`, `Header.quote_fails`, `Hide.again`, `Hide.dev_all`, `Hide.shown_exact`, `Hide.shown_partial`, `Hide.user_frame_lost`, `Hover.late_cell_silent`, `Hover.leaving_darkens`, `Hover.nothing_left_partial`, `Hover.pointed_partial`, `Hover.pointed_sound`, `Hover.refresh_goes_dark`, `Hover.stale_links`, `Hover.stops_at_missing`, `Implicit.reads_partial`, `Imports.assigned_lost`, `Imports.dotted_lost`, `Imports.dotted_partial`, `Imports.from_takes_over`, `Imports.kept_known`, `Imports.listed_partial`, `Imports.listed_sound`, `Imports.never_listed`, `Imports.other_name`, `Imports.plain_lost`, `Imports.same_name_lost`, `Inplace.alias_kept`, `Inplace.alias_lost`, `Inplace.alias_never_in_code`, `Inplace.alias_undefined`, `Inplace.code_makes_late`, `Inplace.code_makes_partial`, `Interrupt.interrupt_exact`, `Interrupt.interrupts_bounded`, `Lift.deps_users_dual`, `Lift.finite_symbols`, `Lift.rdeps_exact`, `Lift.rdeps_rusers_dual`, `Lift.rusers_exact`, `Lint.gone_listed`, `Lint.lint_partial`, `Lint.lint_some`, `Lint.lint_sound`, `Lint.lint_total`, `Lint.removed_listed`, `Lint.removed_silent`, `Lint.second_lost`, `ListNs.delete_follows_partial`, `ListNs.insert_follows_partial`, `ListNs.remove_follows`, `Listen.dropped`, `Listen.heard_iff`, `Listen.heard_partial`, `Listen.kept_iff`, `Listen.kept_partial`, `Listen.unheard_alias`, `Listen.unheard_self`, `Literal.unpack_partial`, `Live.analysis_returns_partial`, `Live.analysis_violated_keyword_only`, `Live.analysis_violated_recursion`, `Live.call_reports_partial`, `Live.dead_sound_partial`, `Live.live_sound_partial`, `Live.live_violated_chain_on_comparison`, `Live.live_violated_class_body`, `Live.live_violated_comprehension_target`, `Live.live_violated_conditional`, `Live.live_violated_curried`, `Live.live_violated_del`, `Live.live_violated_fstring`, `Live.live_violated_keyword_default`, `Live.live_violated_noop`, `Live.live_violated_quasiquotation`, `Live.live_violated_walrus_argument`, `Live.violated_annotation_only`, `Live.violated_lambda_default`, `Live.violated_loop_else`, `Live.violated_suppress`, `Live.violated_try`, `Live.violated_tuple_target`, `Live.violated_walrus_in_and`, `Loading.tracked_partial`, `Loading.unload_missed`, `Lookup.chain_resolved_partial`, `Lookup.fully_iff`, `Lookup.lookup_visible_partial`, `Loops.branches_run_alone`, `Loops.code_runs_alone_partial`, `Loops.later_iteration_lost`, `Loops.later_iteration_unknown`, `Loops.values_right`, `Matchers.answer_iff`, `Matchers.any_raises`, `Matchers.bound_sound`, `Matchers.match_partial`, `Matchers.unmentioned_unbound`, `Memo.memo_hit_partial`, `Memo.pyEq_list_iff`, `Naming.rebound_wrong`, `Naming.wrapped_wrong`, `Origin.Witness.origin_claim_false`, `Origin.others_keep`, `Origin.skipped_lost`, `Origin.texts_partial`, `Paint.background_runs_nothing`, `Paint.mapping_lost`, `Paint.painted_partial`, `Paint.painted_push_partial`, `Paint.ready_forgotten`, `Paint.run_marked_again`, `Paint.selected_erased`, `Paint.selected_last`, `Paint.selected_partial`, `Parts.code_shows_others`, `Parts.flag_without_effect`, `Parts.magic_exact_partial`, `Parts.magic_given_partial`, `Parts.shortened_missing`, `Parts.unfinished_raises`, `Parts.whole_cells_shown`, `Phantom.fails`, `Phantom.found_partial`, `Phantom.own_wrong`, `Place.accurate_partial`, `Place.dealt_with_partial`, `Place.dependencies_only_partial`, `Place.dependencies_partial`, `Place.ends_kept_partial`, `Place.misplaced`, `Place.others_kept_partial`, `Place.recorded_partial`, `Propagate.marks_exact_partial`, `Propagate.marks_reachable`, `Propagate.marks_spare`, `Propagate.order_violated`, `Propagate.propagation_terminates`, `Propagate.rhs_not_waiting_partial`, `Propagate.rhs_violated`, `Propagate.updated_exact`, `Propagate.users_told_partial`, `Propagate.users_violated`, `React.blocked_read_partial`, `React.blocked_store_partial`, `React.cascade_partial`, `React.exact_partial`, `Ready.forced_partial`, `Ready.forced_ready`, `Ready.ready_any_order`, `Ready.ready_hybrid_partial`, `Ready.ready_partial`, `Ready.ready_sound`, `Rebind.moved_right`, `Rebind.nameless_dead`, `Rebind.shared_lost`, `Recall.last_run_partial`, `Recall.last_run_wrong`, `Recall.let_go`, `Recall.number_twice`, `Recall.other_output`, `Recall.own_output`, `Recall.stderr_partial`, `Recall.stdout_partial`, `Recall.unknown_number`, `Recall.untraced_none`, `Redirect.Witness.redirect_claim_false`, `Redirect.answer_lost`, `Redirect.appended`, `Redirect.argument_cut`, `Redirect.class_tag`, `Redirect.direct_printed`, `Redirect.odd_word`, `Redirect.redirected_partial`, `Redirect.second_blank`, `Ref.eq_partial`, `Registry.Marks.reactive_lookup_exact`, `Registry.Pos.iterate_exact_partial`, `Registry.Ren.rename_graph_partial`, `Registry.Ren.rename_violated`, `Registry.exec_counters_partial`, `Registry.exec_counters_violated`, `Registry.tag_lookup_complete`, `Registry.tag_lookup_exact_partial`, `Registry.tag_lookup_violated`, `Rounds.asked_iff`, `Rounds.asked_once`, `Rounds.asked_partial`, `Rounds.executed_iff`, `Rounds.overlap_never_asked`, `Rounds.rerun_never_asked`, `Rounds.text_never_asked`, `Rounds.twice_never_asked`, `Rval.deps_exact_partial`, `Rval.deps_violated_deep`, `Rval.usages_partial`, `Saved.before_runs`, `Saved.both_ways_lost`, `Saved.gone_stays`, `Saved.hidden_read`, `Saved.hidden_saved`, `Saved.kept_any_order_partial`, `Saved.kept_in_order_partial`, `Saved.known_only`, `Saved.never_back`, `Saved.one_sided`, `Saved.run_drops`, `Saved.two_sided`, `Saved.upwards`, `Sched.any_order_deadlock_violated`, `Sched.compute_terminates`, `Sched.dag_waiting_exact`, `Sched.forced_exact`, `Sched.in_order_progress`, `Sched.json_ready_waiting_violated`, `Sched.latest_parent_table`, `Sched.links_exact`, `Sched.new_ready_exact`, `Sched.new_ready_forward`, `Sched.readiness_never_raises`, `Sched.ready_makers_above`, `Sched.ready_makers_inverse`, `Sched.ready_told`, `Sched.ready_waiting_disjoint`, `Sched.reported_graph`, `Sched.reported_graph_acyclic`, `Sched.stale_indexes_exact`, `Sched.stale_indexes_transpose`, `Sched.stale_parents_exact`, `Sched.unsafe_order_exact`, `Sched.waiter_links_exact_partial`, `Sched.waiter_links_only_waiting`, `Sched.waiter_links_sound`, `Sched.waiter_links_violated`, `Scoped.offset_threads`, `Scoped.restored_any_order`, `Scoped.restored_partial`, `Selfuse.code_partial`, `Selfuse.self_update_raises`, `Session.press_partial`, `Session.several_asks`, `Settings.compatible_partial`, `Settings.compatible_violated`, `Settings.highlights_exact`, `Settings.invalid_unchanged_partial`, `Settings.invalid_violated_mode`, `Settings.invalid_violated_prefix`, `Settings.only_kept`, `Settings.syntax_ignored`, `Settings.syntax_partial`, `Settings.syntax_suffix`, `Settings.trace_count`, `Settings.trace_exact`, `Settings.unknown_command_partial`, `Settings.unknown_command_violated`, `Settings.valid_sets`, `Shown.Witness.slice_wrong`, `Shown.edit_shown`, `Shown.past_rewritten`, `Shown.refused_shown`, `Shown.reproduce_beyond`, `Shown.reproduce_exact`, `Shown.shown_exact`, `Shown.shown_iff`, `Shown.shown_ran_partial`, `Shown.slice_entry`, `Shown.slice_ran_partial`, `Slice.memoized_seeds_redirected`, `Slice.multi_slice_no_future`, `Slice.slice_blocks`, `Slice.slice_contains_latest_visible_version`, `Slice.slice_dependency_closed`, `Slice.slice_idempotent`, `Slice.slice_minimal`, `Slice.slice_no_future`, `Slice.slice_seed_only`, `Slice.slice_seed_order_irrelevant`, `Slice.slice_sorted_nodup`, `Slice.slice_terminates_and_raises_iff`, `Slice.slice_text_ends`, `Slice.slice_text_with_headers`, `Slice.slice_text_without_headers`, `Slice.slice_union`, `Span.Witness.span_claim_false`, `Span.end_exact`, `Span.last_exact`, `Span.start_partial`, `Store.any_order_partial`, `Store.any_order_violated`, `Store.between_partial`, `Store.closure_exact`, `Store.in_order`, `Store.pull_ends_partial`, `Store.pull_exact_partial`, `Store.pulled`, `StubFile.blocks_partial`, `StubFile.docstring_stops`, `StubFile.file_too_late`, `StubFile.in_force_partial`, `StubFile.no_colon_needed`, `Sym.alias_complete`, `Sym.alias_exact_partial`, `Sym.alias_violated`, `Sym.augment_exact`, `Sym.edges_mutual`, `Sym.gc_alias_partial`, `Sym.gc_exact`, `Sym.name_kept_partial`, `Sym.name_violated`, `Sym.overwrite_partial`, `Sym.overwrite_violated`, `Text.bad_no_program`, `Text.code_reads_back_iff`, `Text.code_reads_back_partial`, `Text.empty_tuple_lost`, `Text.package_reads_back`, `Text.product_of_sums_lost`, `Text.quotient_by_call_lost`, `Text.reading_unique`, `Text.several_lines_read_back`, `Text.unbracketed_left_kept`, `Text.widget_raises_iff`, `Told.accepted_iff`, `Told.declined`, `Told.deps_iff`, `Told.deps_others`, `Told.last_run_missed`, `Told.last_updated`, `Told.marked_iff`, `Told.named_after_run`, `Told.named_iff`, `Told.named_stays`, `Told.never_fails`, `Told.offered_iff`, `Told.readers_partial`, `Told.recent_missed`, `Told.recent_never`, `Told.refresh_iff`, `Told.refresh_readers_partial`, `Told.users_partial`, `Told.waits_iff`, `Tracers.after_change`, `Tracers.capture_first`, `Tracers.debugger_partial`, `Tracers.disconnect_switches_on`, `Tracers.late_registration`, `Tracers.on_while_attached`, `Tracers.one_of_a_name`, `Tracers.sees_partial`, `Tracers.sees_sound`, `Types.declared_partial`, `Types.inner_confused`, `Types.inner_misnamed`, `Types.inner_wrong`, `Types.list_order`, `Types.set_order`, `Types.sound`, `Types.tight`, `Unseen.bound_newer`, `Unseen.exact_partial`, `Unseen.not_older`, `Unseen.stored_newer`, `Versions.change_lost`, `Versions.current_partial`, `Versions.first_raises`, `Versions.old_version_partial`, `Versions.version_exact`, `Wait.isWaiting_total_partial`, `Wait.waits_partial`, `Wait.waits_sound_partial`, `Wait.waits_violated_cycle`, `Wait.waits_violated_moved`, `Waiters.Witness.show_claim_false`, `Waiters.all_partial`, `Waiters.global_partial`, `Waiters.one_fails`, `Waiters.refused`, `Waiters.rest_ignored`, `Watch.raise_disables`, `Watch.stops_exact`, `Watch.stops_partial`, `Widget.code_partial`, `Widget.digits_become_number`, `Widget.ends_with_exception`, `Widget.noticed_partial`, `Widget.runs_again`, `Widget.set_by_program`, `Widget.settled_by_run_partial`, `Widget.two_from_one_cell`, `Widget.unnoticed`, `Widget.word_becomes_name`
