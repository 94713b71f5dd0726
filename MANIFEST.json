{
 "claims": [
  {
   "property": "C01",
   "status": "proved",
   "theorems": [
    "Varisat.C01.from_var_lossless",
    "Varisat.C01.parts_lossless",
    "Varisat.C01.dimacs_roundtrip",
    "Varisat.C01.dimacs_roundtrip'",
    "Varisat.C01.dimacs_range",
    "Varisat.C01.neg_spec",
    "Varisat.C01.xor_spec",
    "Varisat.C01.map_var_spec",
    "Varisat.C01.max_var_value",
    "Varisat.C01.word_level",
    "Varisat.C01.word_level_not"
   ],
   "note": "unbounded and 32-bit word-level versions"
  },
  {
   "property": "C02",
   "status": "proved",
   "theorems": [
    "Varisat.C02.history",
    "Varisat.C02.vars_in_range",
    "Varisat.C02.var_count_least",
    "Varisat.C02.from_iter",
    "Varisat.C02.equality",
    "Varisat.C02.new_var_fresh",
    "Varisat.C02.new_var_iter_spec"
   ],
   "note": "all histories of calls"
  },
  {
   "property": "C03",
   "status": "proved",
   "theorems": [
    "Varisat.C03.round_trip"
   ],
   "note": "for every formula with varCount ≤ 2^28 built by any history of calls"
  },
  {
   "property": "C04",
   "status": "proved",
   "theorems": [
    "Varisat.C04.parse_chunking",
    "Varisat.C04.feed_chunking",
    "Varisat.C04.error_sticky"
   ],
   "note": "all byte strings, all chunkings; full parser state"
  },
  {
   "property": "C05",
   "status": "proved",
   "theorems": [
    "Varisat.C05.exactly_once",
    "Varisat.C05.taken_is_parse"
   ],
   "note": "all chunkings and take schedules; errors of the caller's callback are not modelled"
  },
  {
   "property": "C06",
   "status": "proved",
   "theorems": [
    "Varisat.C06.number_exact"
   ],
   "note": "all digit strings; in arbitrary context by C08"
  },
  {
   "property": "C07",
   "status": "proved",
   "theorems": [
    "Varisat.C07.header_enforced"
   ],
   "note": "all inputs, chunkings, take schedules; the rejecting direction is C08.accepts_exactly_partial"
  },
  {
   "property": "C08",
   "status": "partial",
   "theorems": [
    "Varisat.C08.accepts",
    "Varisat.C08.accepts_all",
    "Varisat.C08.accepted",
    "Varisat.C08.accepts_exactly_partial",
    "Varisat.C08.accepts_no_header_partial",
    "Varisat.C08.dangling_minus_accepted",
    "Varisat.C08.error_line",
    "Varisat.C08.header_error_line_off_by_one"
   ],
   "note": "what the parser accepts is characterised for all byte strings (accepts): the language, after taking away a lone minus sign at the very end of the data. So every file in the language is accepted (accepts_all), but the code also accepts some that are not (dangling_minus_accepted); reported line is off by one when the offending byte is the line feed (witness proved)"
  },
  {
   "property": "C09",
   "status": "proved",
   "theorems": [
    "Varisat.C09.roundtrip",
    "Varisat.C09.format"
   ],
   "note": "All v < 2^64, every continuation and every buffer fill level; C09.format also shows the documented layout and minimal length."
  },
  {
   "property": "C10",
   "status": "proved",
   "theorems": [
    "Varisat.C10.buffer_independent",
    "Varisat.C10.self_delimiting"
   ],
   "note": "For every byte string; fast path and byte-wise path agree, truncated input is an error."
  },
  {
   "property": "C11",
   "status": "proved",
   "theorems": [
    "Varisat.C11.step_roundtrip",
    "Varisat.C11.sequence_roundtrip",
    "Varisat.C11.injective"
   ],
   "note": "For all steps whose fields fit their machine types."
  },
  {
   "property": "C18",
   "status": "proved",
   "theorems": [
    "Varisat.C18.hash_perm",
    "Varisat.C18.checker_hash_perm",
    "Varisat.C18.canonical_eq_iff",
    "Varisat.C18.canonical_set",
    "Varisat.C18.tautology_iff",
    "Varisat.C18.tautology_sat",
    "Varisat.C18.isSubset_iff"
   ],
   "note": "all literal lists; hash functions of solver and checker, canonical form, tautology and subset tests"
  },
  {
   "property": "C12",
   "status": "proved",
   "theorems": [
    "Varisat.C12.truncated_never_accepted",
    "Varisat.C12.truncated_written_proof",
    "Varisat.C12.cut_step_is_eof",
    "Varisat.C12.marker_present"
   ],
   "note": "any byte string without a complete end marker; any cut of any written proof"
  },
  {
   "property": "C13",
   "status": "proved",
   "theorems": [
    "Varisat.C13.refutation_sound",
    "Varisat.C13.check_proof_sound",
    "Varisat.C13.success_is_not_refutation"
   ],
   "note": "all histories; note check_proof also returns Ok for proofs which never derive the empty clause (witness proved)"
  },
  {
   "property": "C14",
   "status": "proved",
   "theorems": [
    "Varisat.C14.at_clause_implied",
    "Varisat.C14.unit_clauses_implied",
    "Varisat.C14.reported_clauses_implied"
   ],
   "note": "all histories, all hash functions (collisions included), rejected steps in between included"
  },
  {
   "property": "C15",
   "status": "proved",
   "theorems": [
    "Varisat.C15.failed_assumptions_sound"
   ],
   "note": "all histories"
  },
  {
   "property": "C16",
   "status": "proved",
   "theorems": [
    "Varisat.C16.nothing_lost",
    "Varisat.C16.held_implied",
    "Varisat.C16.delete_var_loses_unit"
   ],
   "note": "all accepted histories without DeleteVar; with DeleteVar the claim is false (witness proved)"
  },
  {
   "property": "C17",
   "status": "partial",
   "theorems": [
    "Varisat.C17.model_sound_partial",
    "Varisat.C17.total_model_sound_partial",
    "Varisat.C17.model_of_unsat_accepted",
    "Varisat.C17.model_after_delete_var"
   ],
   "note": "holds while no contradiction was derived and no DeleteVar step occurred; without these two conditions the claim is false of the code (witnesses proved)"
  },
  {
   "property": "C20",
   "status": "proved",
   "theorems": [
    "Varisat.C20.ids_increasing",
    "Varisat.C20.check_proof_ids_increasing",
    "Varisat.C20.ids_distinct",
    "Varisat.C20.second_check_proof_reuses_id"
   ],
   "note": "along every history starting from a new checker; a second check_proof call on the same checker reuses an id (witness proved)"
  },
  {
   "property": "C21",
   "status": "proved",
   "theorems": [
    "Varisat.C21.replay",
    "Varisat.C21.check_proof_replay",
    "Varisat.C21.propagations_valid",
    "Varisat.C21.conflict_cites_deleted_unit"
   ],
   "note": "reported steps replay against an independent id-indexed database; one finding for unit conflicts after DeleteVar"
  },
  {
   "property": "C19",
   "status": "proved",
   "theorems": [
    "Varisat.C19.multiset",
    "Varisat.C19.step",
    "Varisat.C19.absent_rejected",
    "Varisat.C19.present_accepted"
   ],
   "note": "per clause, redundant and irredundant copies separately; once a contradiction is known the code ignores added clauses (covered by C19.step)"
  },
  {
   "property": "C22",
   "status": "proved",
   "theorems": [
    "Varisat.C22.hints_suffice",
    "Varisat.C22.known_literal",
    "Varisat.C22.failed_assumptions"
   ],
   "note": "all reachable states (rejected steps included), arbitrary hash collisions, extra trailing hashes; also for failed assumptions (with a transcript: of variables the checker can name)"
  },
  {
   "property": "C23",
   "status": "proved",
   "theorems": [
    "Varisat.C23.collect_garbage",
    "Varisat.C23.rehash",
    "Varisat.C23.steps"
   ],
   "note": "all reachable states, all iteration orders of the hash map"
  },
  {
   "property": "C46",
   "status": "partial",
   "theorems": [
    "Varisat.C46.state_kept_partial",
    "Varisat.C46.sound_after_rejections",
    "Varisat.C46.no_leftovers",
    "Varisat.C46.no_clause_panics_later",
    "Varisat.C46.unit_clauses_half_applied",
    "Varisat.C46.sampling_mode_half_applied",
    "Varisat.C46.rejected_delete_forgets",
    "Varisat.C46.malformed_panics"
   ],
   "note": "false of the code in the listed cases (witnesses proved): unknown hash leaves temporary assignments and later calls panic; UnitClauses and ChangeSamplingMode can be half applied"
  },
  {
   "property": "C24",
   "status": "partial",
   "theorems": [
    "Varisat.C24.binary",
    "Varisat.C24.text_partial",
    "Varisat.C24.text_complete",
    "Varisat.C24.line_numbers",
    "Varisat.C24.text_loses_deletions"
   ],
   "note": "binary format in full; textual format in full unless the proof ends with input clauses, whose deletions are then lost (witness)"
  },
  {
   "property": "C25",
   "status": "proved",
   "theorems": [
    "Varisat.C25.read_back",
    "Varisat.C25.supported",
    "Varisat.C25.binary_literals"
   ],
   "note": "both formats, all step sequences"
  },
  {
   "property": "C34",
   "status": "proved",
   "theorems": [
    "Varisat.C34.set_len",
    "Varisat.C34.set_deleted",
    "Varisat.C34.set_tier",
    "Varisat.C34.set_mark",
    "Varisat.C34.set_active",
    "Varisat.C34.set_glue",
    "Varisat.C34.set_activity",
    "Varisat.C34.redundant_iff"
   ],
   "note": "all header words, all values; every setter changes exactly its field"
  },
  {
   "property": "C35",
   "status": "partial",
   "theorems": [
    "Varisat.C35.queue",
    "Varisat.C35.state",
    "Varisat.C35.no_panic",
    "Varisat.C35.maximal_partial",
    "Varisat.C70.queue",
    "Varisat.C70.maximal_partial",
    "Varisat.C35.maximal_fails"
   ],
   "note": "nothing lost or duplicated for all histories; maximality is false of the code after make_unavailable of a variable that is not most active (witness proved), proved for all other histories"
  },
  {
   "property": "C36",
   "status": "proved",
   "theorems": [
    "Varisat.C36.luby"
   ],
   "note": "all indices below 2^64-1, where the counter of the code wraps"
  },
  {
   "property": "C26",
   "status": "proved",
   "theorems": [
    "Varisat.C26.model_satisfies",
    "Varisat.C26.solve_true",
    "Varisat.C26.model_exists",
    "Varisat.C26.model_satisfies_named",
    "Varisat.C26.model_panics"
   ],
   "note": "all histories of calls, all configurations, all activity arithmetic; also with hidden and observed variables; finding: model() panics after new_var on a solved satisfiable formula (witness)"
  },
  {
   "property": "C27",
   "status": "proved",
   "theorems": [
    "Varisat.C27.solve_false",
    "Varisat.C27.solve_false_no_assumptions",
    "Varisat.C27.solve_false_named",
    "Varisat.C27.answers"
   ],
   "note": "all histories of calls; termination of the search is not claimed"
  },
  {
   "property": "C37",
   "status": "proved",
   "theorems": [
    "Varisat.C37.user_global",
    "Varisat.C37.solver_global",
    "Varisat.C37.user_injective",
    "Varisat.C37.solver_injective",
    "Varisat.C37.free_unmapped",
    "Varisat.C37.new_var_fresh",
    "Varisat.C37.names",
    "Varisat.C37.name_stable"
   ],
   "note": "all histories of calls of the public interface (elimination of variables happens inside solve)"
  },
  {
   "property": "C45",
   "status": "proved",
   "theorems": [
    "Varisat.C45.every_answer",
    "Varisat.C45.every_answer_named",
    "Varisat.C45.refinement",
    "Varisat.C45.stable"
   ],
   "note": "every answer inside any history of calls"
  },
  {
   "property": "C39",
   "status": "partial",
   "theorems": [
    "Varisat.C39.add_clause",
    "Varisat.C39.empty_clause",
    "Varisat.C39.false_literal",
    "Varisat.C39.not_at_once"
   ],
   "note": "what is stored after add_clause means exactly what was stored before together with the clause, for all histories; 'reports unsatisfiable at once' is false for a clause of two or more literals that are all false (witness proved), proved for the empty clause and single literals"
  },
  {
   "property": "C29",
   "status": "proved",
   "theorems": [
    "Varisat.Solver.C29.learned",
    "Varisat.Solver.C29.level_zero",
    "Varisat.Solver.C29.stored"
   ],
   "note": "every conflict that any search after any history of calls can reach; the clause is implied, all false, asserting after the backtrack, and no panic; at level zero the empty clause is implied"
  },
  {
   "property": "C30",
   "status": "proved",
   "theorems": [
    "Varisat.Solver.C30.minimise",
    "Varisat.Solver.C30.any_filter"
   ],
   "note": "every reachable conflict; soundness for every choice of the level filter, the Bloom filter being one of them"
  },
  {
   "property": "C31",
   "status": "proved",
   "theorems": [
    "Varisat.Solver.C31.sound",
    "Varisat.Solver.C31.complete",
    "Varisat.Solver.C31.conflict",
    "Varisat.Solver.C31.reach"
   ],
   "note": "every state a search can reach"
  },
  {
   "property": "C32",
   "status": "proved",
   "theorems": [
    "Varisat.Solver.C32.agree",
    "Varisat.Solver.C32.backtrack",
    "Varisat.Solver.C32.available",
    "Varisat.Solver.C32.agree_after"
   ],
   "note": "every state a search can reach, every target level"
  },
  {
   "property": "C38",
   "status": "proved",
   "theorems": [
    "Varisat.Solver.C38.models",
    "Varisat.Solver.C38.clean"
   ],
   "note": "every root-level state a search can reach, for the collection of proven units followed by the simplification"
  },
  {
   "property": "C40",
   "status": "proved",
   "theorems": [
    "Varisat.Solver.C40.locals",
    "Varisat.Solver.C40.mids",
    "Varisat.Solver.C40.counts"
   ],
   "note": "every state a search can reach; which clauses go and how many is stated too"
  },
  {
   "property": "C33",
   "status": "proved",
   "theorems": [
    "Varisat.C33.resolves",
    "Varisat.C33.fresh",
    "Varisat.C33.no_panic",
    "Varisat.C33.copied",
    "Varisat.Solver.C33.layout",
    "Varisat.Solver.C33.reason_first",
    "Varisat.Solver.C33.collection",
    "Varisat.Solver.C33.stable",
    "Varisat.Solver.C33.kept",
    "Varisat.Solver.C33.simplified"
   ],
   "note": "word buffer: all sequences of operations; search: every reachable state and all paths between collections; propagation may reorder the literals of a clause, root-level simplification removes assigned ones (stated separately)"
  },
  {
   "property": "C44",
   "status": "partial",
   "theorems": [
    "Varisat.Out.C44.never_answers",
    "Varisat.Out.C44.no_result",
    "Varisat.Out.C44.first_partial",
    "Varisat.Out.C44.panics",
    "Varisat.Out.C44.valid",
    "Varisat.Out.C44.close_takes"
   ],
   "note": "No answer after an error, for every history of calls, every pattern of failing I/O operations and every processor; then every solve panics once the error was returned. 'The first solve returns it' is false after close_proof, which takes the error itself (close_takes), and proved otherwise, with the right kind, if proof output is set up first."
  },
  {
   "property": "C47",
   "status": "partial",
   "theorems": [
    "Varisat.Out.C47.in_step_partial",
    "Varisat.Out.C47.checker_partial",
    "Varisat.Out.C47.hash",
    "Varisat.Out.C47.range_partial",
    "Varisat.Out.C47.room",
    "Varisat.Out.C47.shrinks",
    "Varisat.Out.C47.second_file",
    "Varisat.Out.C47.overflow"
   ],
   "note": "In step with the reader/checker for every proof file started before the first solve; missing: files started later, where it is false (second_file). 'Never shrinks' is false (shrinks). Never above 64 because more than 2^32 counted clauses panic (overflow)."
  },
  {
   "property": "C43",
   "status": "partial",
   "theorems": [
    "Varisat.Config.C43.atomic",
    "Varisat.Config.C43.solver",
    "Varisat.Config.C43.in_range",
    "Varisat.Config.C43.merge_fields",
    "Varisat.Config.C43.merge_partial",
    "Varisat.Config.C43.merge_accepted",
    "Varisat.Config.C43.merge_repairs",
    "Varisat.Config.C43.merge_discards"
   ],
   "note": "Atomicity and ranges proved for every update, every bit pattern of the f32 fields and every sequence of calls of Solver::config (which never panics). Merging equals applying one after the other when both are accepted; when one is rejected this is false (merge_repairs, merge_discards)."
  },
  {
   "property": "C48",
   "status": "partial",
   "theorems": [
    "Varisat.Cli.C48.status_partial",
    "Varisat.Cli.C48.value_line_partial",
    "Varisat.Cli.C48.forged"
   ],
   "note": "For all arguments, inputs and errors, if no log message contains a line break; without this condition it is false (forged: a file name may contain a verdict line)."
  },
  {
   "property": "C49",
   "status": "partial",
   "theorems": [
    "Varisat.Cli.C49.satisfiable_partial",
    "Varisat.Cli.C49.unsatisfiable",
    "Varisat.Cli.C49.document_partial",
    "Varisat.Cli.C49.not_dimacs"
   ],
   "note": "Composition of the models of the command line tool, the DIMACS parser and the solver. The value line is only unique without line breaks in log messages. document_partial excludes inputs that end in a minus sign as in C08; for them it is false (not_dimacs)."
  },
  {
   "property": "C50",
   "status": "partial",
   "theorems": [
    "Varisat.Cli.C50.status_partial",
    "Varisat.Cli.C50.unsat_line_partial",
    "Varisat.Cli.C50.refuted_partial",
    "Varisat.Cli.C50.verified_without_refutation",
    "Varisat.Cli.C50.added_in_proof",
    "Varisat.Cli.C50.forged"
   ],
   "note": "Composition of the models of the command line tool, the DIMACS parser, the proof parser and the checker. For log messages without line breaks; without this condition it is false (forged). verified_without_refutation and added_in_proof show what the verdict does not say."
  },
  {
   "property": "C28",
   "status": "partial",
   "theorems": [
    "Varisat.Solver.C28.failed_core_partial",
    "Varisat.Solver.C28.after_search_partial",
    "Varisat.Solver.C28.wrong_core"
   ],
   "note": "The core is a subset of the assumptions in all reachable states. It is unsatisfiable with the formula if no failed core of one literal was reported earlier; without this condition the claim is false of the code (wrong_core: a scratch flag is left set)."
  },
  {
   "property": "C41",
   "status": "proved",
   "theorems": [
    "Varisat.Solver.C41.hints",
    "Varisat.Solver.C41.accepted"
   ],
   "note": "The hashes are those of database clauses forming a unit propagation refutation; a checker that has followed the proof so far accepts the clause, in all reachable histories (fewer than 2^32 solver variables)."
  },
  {
   "property": "C42",
   "status": "partial",
   "theorems": [
    "Varisat.Solver.C42.compute_glue",
    "Varisat.Solver.C42.clean_partial",
    "Varisat.Solver.C42.clean_search_partial",
    "Varisat.Solver.C42.one_flag",
    "Varisat.Solver.C42.learned_partial",
    "Varisat.Solver.C42.bumped",
    "Varisat.Solver.C42.dirty_flags",
    "Varisat.Solver.C42.wrong_glue"
   ],
   "note": "Full for clean flags. The flags are clean in all reachable states unless a failed core of one literal was reported; after one the claim is false of the code (dirty_flags, wrong_glue)."
  },
  {
   "property": "C51",
   "status": "partial",
   "theorems": [
    "Varisat.Solver.C51.self_check_partial",
    "Varisat.Solver.C51.any_processor_partial",
    "Varisat.Solver.C51.transparent_partial",
    "Varisat.Solver.C51.no_assumptions",
    "Varisat.Solver.C51.unsat_checked",
    "Varisat.Solver.C51.rejects",
    "Varisat.Solver.C51.drat_assume",
    "Varisat.Solver.C51.drat_incremental"
   ],
   "note": "Full for histories without assumptions (for DRAT also: no clauses after solve, since DRAT output panics on both: drat_assume, drat_incremental). With assumptions the claim is false after a failed core of one literal, when a wrong core is rejected by the checker (rejects). Fewer than 2^32 solver variables and clauses. any_processor_partial also covers processors that return errors."
  },
  {
   "property": "C52",
   "status": "partial",
   "theorems": [
    "Varisat.Solver.C52.proof_file_partial",
    "Varisat.Solver.C52.solve_once",
    "Varisat.Solver.C52.vars_le",
    "Varisat.Solver.C52.hidden_rejected"
   ],
   "note": "Proved when no variables are hidden or observed before the first solve; with hidden variables the claim is false (hidden_rejected). After a failed core of one literal nothing is claimed (C51.rejects). A checker with a transcript is only covered without tautological clauses. At most 2^31 variables, 2^32 clauses at a time and 2^64 assumptions in a call."
  },
  {
   "property": "C53",
   "status": "partial",
   "theorems": [
    "Varisat.C53.no_panic_partial",
    "Varisat.C53.plain_never",
    "Varisat.C53.rejected",
    "Varisat.C53.stale_mark"
   ],
   "note": "Proved except for changing the mode of a variable that was assumed during an earlier solve; there the claim is false (stale_mark). Calls of model() are C26."
  },
  {
   "property": "C54",
   "status": "proved",
   "theorems": [
    "Varisat.C54.ends",
    "Varisat.C54.decides",
    "Varisat.C54.decides_named",
    "Varisat.C54.first",
    "Varisat.C54.first_fits"
   ],
   "note": "Conflict and restart counters are unbounded in the model (u64 in the code); first_fits shows that they do not overflow in a first search over up to 50 variables with the default scale."
  },
  {
   "property": "C55",
   "status": "partial",
   "theorems": [
    "Varisat.C55.model_none",
    "Varisat.C55.model_some_partial",
    "Varisat.C55.core_some",
    "Varisat.C55.core_none",
    "Varisat.C55.core_assume",
    "Varisat.C26.model_panics"
   ],
   "note": "model() may panic if a variable was created after the model was found (C26.model_panics, negation proved); everything else in full."
  },
  {
   "property": "C56",
   "status": "proved",
   "theorems": [
    "Varisat.Cli.C56.status",
    "Varisat.Cli.C56.ends",
    "Varisat.Cli.C56.decides",
    "Varisat.Cli.C56.document"
   ],
   "note": "Composition of the models of the command line tool, the parser and the solver. Search steps are counted by an unbounded number. A standard output that cannot be written to is not modelled."
  },
  {
   "property": "C57",
   "status": "partial",
   "theorems": [
    "Varisat.Cli.C57.verified_partial",
    "Varisat.Cli.C57.vars_le",
    "Varisat.Cli.C57.taut_panics",
    "Varisat.Solver.C57.reports_partial",
    "Varisat.Cli.C57.silent"
   ],
   "note": "Proved for files without tautological clauses, and at most 2^32 clauses at a time; t UNSAT is only guaranteed if the file has no empty clause (silent is a counterexample). The command line calls modelled are those of C52: the proof is closed explicitly."
  },
  {
   "property": "C58",
   "status": "proved",
   "theorems": [
    "Varisat.Solver.C58.part",
    "Varisat.Solver.C58.shape",
    "Varisat.Solver.C58.models",
    "Varisat.Solver.C58.clauses_le",
    "Varisat.Solver.C58.clauses_plain"
   ],
   "note": "For all histories; clauses_plain additionally counts the clauses exactly for satisfiable formulas without hidden variables."
  },
  {
   "property": "C59",
   "status": "partial",
   "theorems": [
    "Varisat.Solver.C59.session_decides",
    "Varisat.Solver.C59.file_partial",
    "Varisat.Solver.C59.solve_once_partial",
    "Varisat.Solver.C59.sound",
    "Varisat.Solver.C59.renamed"
   ],
   "note": "The session in the statement is proved in full (session_decides). Partial for other histories: no variables hidden or observed before the first solve (renamed is a counterexample) and no assumptions or later clauses, on which DRAT output panics."
  },
  {
   "property": "C60",
   "status": "partial",
   "theorems": [
    "Varisat.Checker.C60.checked_partial",
    "Varisat.Checker.C60.history_partial",
    "Varisat.Checker.C60.two_names",
    "Varisat.Checker.C60.deleted"
   ],
   "note": "Proved for proofs that keep the numbers of variables and delete none. Without these conditions the claim is false: two_names and deleted are counterexamples in the model of the code."
  },
  {
   "property": "C61",
   "status": "partial",
   "theorems": [
    "Varisat.Cli.C61.lines_partial",
    "Varisat.Cli.C61.last_missing"
   ],
   "note": "The lines are characterised exactly for all accepted proofs; that the transcript shown is faithful has the conditions of C60. The order of log lines relative to transcript lines is not modelled."
  },
  {
   "property": "C62",
   "status": "partial",
   "theorems": [
    "Varisat.Cli.C62.file_partial",
    "Varisat.Cli.C62.solved_partial",
    "Varisat.C62.checked_partial",
    "Varisat.C62.sound",
    "Varisat.Cli.C62.id_clash"
   ],
   "note": "Proved for accepted proofs that add no clauses and delete no variables, and for all proofs written by the solver for one solve, provided that no two input clauses before the last one are contradicting units. Without the last condition the claim is false: id_clash. Tautologies and more than 2^32 clauses at a time are excluded for solver-written proofs as in C57."
  },
  {
   "property": "C63",
   "status": "partial",
   "theorems": [
    "Varisat.Solver.C63.steps_partial",
    "Varisat.Solver.C63.file_partial",
    "Varisat.Solver.C63.id_clash",
    "Varisat.Solver.C63.twice"
   ],
   "note": "Proved for adding clauses followed by one solve, provided that no two clauses before the last one are contradicting units. Without these conditions the claim is false: id_clash uses the id of the third clause for the empty clause, twice emits the empty clause twice with one id."
  },
  {
   "property": "C64",
   "status": "partial",
   "theorems": [
    "Varisat.Cli.C64.answers",
    "Varisat.Cli.C64.status_partial",
    "Varisat.Cli.C64.same_partial",
    "Varisat.Cli.C64.drat",
    "Varisat.Cli.C64.lrat_partial",
    "Varisat.Cli.C64.native_partial"
   ],
   "note": "DRAT files without restrictions. LRAT files for inputs without contradicting units before the last clause, as in C62. Native files for inputs without tautologies and at most 2^32 clauses at a time, as in C57. That writes (for LRAT those of the target of the writer) do not fail is a hypothesis of all but answers and status_partial."
  },
  {
   "property": "C65",
   "status": "partial",
   "theorems": [
    "Varisat.Cli.C65.verdict_partial",
    "Varisat.Cli.C65.drat",
    "Varisat.Cli.C65.lrat_partial",
    "Varisat.Cli.C65.marker_lost",
    "Varisat.Cli.C65.lrat_lost"
   ],
   "note": "The verdict for all formats (native: at most 2^32 clauses at any time), the file for DRAT, the steps handed to the writer for LRAT (without contradicting units, as C63). For native files the claim is false: marker_lost is a run with status 20 whose file lacks the end marker and is rejected. For LRAT files as well: with a verdict the file may lack up to 8194 bytes at its end, no more (lrat_partial), and lrat_lost is a run with status 20 and an empty file."
  },
  {
   "property": "C66",
   "status": "partial",
   "theorems": [
    "Varisat.C66.fresh_partial",
    "Varisat.C66.reused"
   ],
   "note": "Proved unless the variable was only used in a clause added to a formula that was already unsatisfiable. For such clauses the claim is false (reused): the clause is ignored and its variables are not created."
  },
  {
   "property": "C67",
   "status": "proved",
   "theorems": [
    "Varisat.Solver.C67.within",
    "Varisat.Solver.C67.below",
    "Varisat.Solver.C67.readable"
   ],
   "note": "For all histories; numbers of variables fit into 32 bits (readable: 2^31 variables, lists of assumptions shorter than 2^64)."
  },
  {
   "property": "C68",
   "status": "partial",
   "theorems": [
    "Varisat.Solver.C68.exact",
    "Varisat.Solver.C68.image",
    "Varisat.Solver.C68.safe_partial",
    "Varisat.Solver.C68.round",
    "Varisat.Solver.C68.checked",
    "Varisat.Solver.C68.unchecked"
   ],
   "note": "Proved for every state of a search with at most 2^31 variables (exact, image), and for any buffer made by the operations of the allocator if all watched clauses have at least two literals (safe_partial). The full claim of the source comment, safety whatever the clause database contains, is false (unchecked). Aliasing rules of references are not modelled."
  },
  {
   "property": "C69",
   "status": "proved",
   "theorems": [
    "Varisat.Lrat.C69.flushed",
    "Varisat.Lrat.C69.unfailing",
    "Varisat.Lrat.C69.failed",
    "Varisat.Lrat.C69.dropped",
    "Varisat.Lrat.C69.kept",
    "Varisat.Lrat.C69.silent",
    "Varisat.Lrat.C69.complete",
    "Varisat.Lrat.C69.lost"
   ],
   "note": "The buffer is the BufWriter of the standard library with its default capacity, as documented; interrupted calls, which are repeated, are not modelled."
  },
  {
   "property": "C70",
   "status": "proved",
   "theorems": [
    "Varisat.C70.heap",
    "Varisat.C70.clauses",
    "Varisat.C70.order",
    "Varisat.C70.config",
    "Varisat.C70.nearest"
   ],
   "note": "For all sequences of calls. f32 operations on numbers that are not negative are correctly rounded by definition (Spec/Float32); infinity and NaN are one absorbing value. That only clauses which are not deleted are bumped is part of the model of clause activities."
  },
  {
   "property": "C71",
   "status": "partial",
   "theorems": [
    "Varisat.Out.Buf.C71.answered",
    "Varisat.Out.Buf.C71.closed",
    "Varisat.Out.Buf.C71.buffered",
    "Varisat.Out.Buf.C71.former",
    "Varisat.Out.Buf.C71.refines",
    "Varisat.Out.Buf.C71.returns",
    "Varisat.Out.Buf.C71.reported_partial",
    "Varisat.Out.Buf.C71.replaced"
   ],
   "note": "Everything but the last sentence is proved for all targets and histories. The last sentence is false: a target replaced by a second write_proof is dropped without flushing it, and errors are ignored (replaced). If the proof output is set up once, failures are returned by the next solve (reported_partial)."
  },
  {
   "property": "C72",
   "status": "partial",
   "theorems": [
    "Varisat.Cli.C72.refines",
    "Varisat.Cli.C72.settled",
    "Varisat.Cli.C72.carry",
    "Varisat.Cli.C72.works",
    "Varisat.Cli.C72.verdict_partial",
    "Varisat.Cli.C72.drat",
    "Varisat.Cli.C72.lrat_partial",
    "Varisat.Cli.C72.native_partial",
    "Varisat.Cli.C72.marker_lost"
   ],
   "note": "Proved for DRAT files and all targets. False for native files: the end marker is written when the solver is dropped, where errors are ignored (marker_lost); nothing else can be missing (native_partial, for inputs without tautologies). LRAT files lack at most what was in the buffer of the writer (lrat_partial). For the native format the number of clauses is bounded (NetFits)."
  },
  {
   "property": "C73",
   "status": "proved",
   "theorems": [
    "Varisat.Solver.C73.joint",
    "Varisat.Solver.C73.agrees",
    "Varisat.Solver.C73.ends",
    "Varisat.Solver.C73.answer",
    "Varisat.Solver.C73.error",
    "Varisat.Solver.C73.model",
    "Varisat.Solver.C73.core",
    "Varisat.Solver.C73.named",
    "Varisat.Solver.C73.after",
    "Varisat.Solver.C73.model_after_error"
   ],
   "note": "For clauses of user variables without hide_var (and observe) in terms of the calls, otherwise in terms of the variables the user variables stood for (named). Whether the core itself is unsatisfiable is C28."
  },
  {
   "property": "C74",
   "status": "partial",
   "theorems": [
    "Varisat.C74.same",
    "Varisat.C74.monotone",
    "Varisat.C74.implied",
    "Varisat.C74.units",
    "Varisat.C74.split",
    "Varisat.C74.renamed",
    "Varisat.C74.model",
    "Varisat.C74.core_partial",
    "Varisat.C74.core_wrong",
    "Varisat.C74.excluded",
    "Varisat.C74.status",
    "Varisat.C74.asked"
   ],
   "note": "For histories without hidden and observed variables. Everything but the sentence about failed cores is proved in full; that sentence is false after an earlier failed core of one literal (core_wrong, see C28) and proved otherwise."
  },
  {
   "property": "C75",
   "status": "proved",
   "theorems": [
    "Varisat.C75.exact",
    "Varisat.C75.once",
    "Varisat.C75.ends",
    "Varisat.C75.bound",
    "Varisat.C75.counts",
    "Varisat.C75.counts_all"
   ],
   "note": "The loop is that of a user; the calls in it are those of the model of the solver."
  },
  {
   "property": "C76",
   "status": "partial",
   "theorems": [
    "Varisat.C76.switched",
    "Varisat.C76.core_partial"
   ],
   "note": "Answers in full. The sentence about failed cores is proved unless a failed core of one literal was reported before; without this condition it is false (C28.wrong_core)."
  },
  {
   "property": "C77",
   "status": "proved",
   "theorems": [
    "Varisat.C77.minimal",
    "Varisat.C77.confirmed",
    "Varisat.C77.empty",
    "Varisat.C77.after_solve",
    "Varisat.C77.ends"
   ],
   "note": "The loop is that of a user; the calls in it are those of the model of the solver."
  }
 ]
}