{"id": "C01", "title": "Literal encoding is lossless", "statement": "For every variable index up to the documented maximum and every polarity, a literal built from it reports back exactly that variable and that polarity; converting to and from the signed DIMACS number is a bijection between the literals and the nonzero integers of magnitude at most 2^28; negating a literal twice gives it back and negation changes only the sign.", "quantifier": "all variable indices 0..2^28-1, both polarities, all nonzero DIMACS numbers in range", "why_tests_cant": "The range has 2^29 members; a test samples a handful of them and cannot exclude a collision or wrap-around at the boundary.", "anchors": ["varisat-formula/src/lit.rs: Var::from_dimacs, Var::to_dimacs, Var::max_var, Lit::from_var, Lit::from_dimacs, Lit::to_dimacs, Lit::from_code, Not for Lit, BitXor<bool> for Lit"]}
{"id": "C02", "title": "A CnfFormula is exactly the list of clauses put into it", "statement": "After any sequence of add_clause, new_var and set_var_count calls on a formula, iterating it yields exactly the added clauses, literal by literal and in order; len is their number; var_count exceeds every variable index used and is the smallest count consistent with the calls made; equality of two formulas holds exactly when variable counts and clause lists agree; new_var never returns a variable already in use.", "quantifier": "all finite sequences of formula-building calls", "why_tests_cant": "The storage is one shared literal buffer plus ranges; an off-by-one only shows for particular interleavings, so only an argument over every history settles it.", "anchors": ["varisat-formula/src/cnf.rs: CnfFormula::{set_var_count,add_clause,iter,len,new_var}, PartialEq for CnfFormula, From<I> for CnfFormula"]}
{"id": "C03", "title": "DIMACS write/parse round trip", "statement": "Writing any formula whose variables are within the supported range with write_dimacs and parsing the resulting bytes yields a formula equal to the original (same variable count, same clauses in the same order), and parsing does not fail.", "quantifier": "all formulas over supported variables, including empty formulas, empty clauses and duplicate literals", "why_tests_cant": "Formulas are unbounded; the repo's proptest samples small ones.", "anchors": ["varisat-dimacs/src/lib.rs: write_dimacs, write_dimacs_header, write_dimacs_clauses, DimacsParser::parse"]}
{"id": "C04", "title": "DIMACS parsing does not depend on how the input is split", "statement": "Feeding the parser the same bytes in any sequence of chunks (including empty chunks and chunks that cut numbers, minus signs, comments or header lines) produces the same formula, header and error as feeding them at once.", "quantifier": "all byte strings and all ways to split them into chunks", "why_tests_cant": "The number of splits is exponential in the input length and the parser keeps state between chunks (partial literal, partial header, in-comment flag).", "anchors": ["varisat-dimacs/src/lib.rs: DimacsParser::{parse_chunk,parse_incremental,eof}"]}
{"id": "C05", "title": "Incremental parsing hands every clause over exactly once", "statement": "When the caller takes the clauses parsed so far at arbitrary points between chunks, the concatenation of everything taken equals the clause list of parsing all bytes at once, and the header check still compares against the total clause count and the maximal variable over all parts.", "quantifier": "all byte strings, all chunkings and all sets of take points", "why_tests_cant": "Take points interact with the clause counter and the partially read clause; only a proof covers all schedules.", "anchors": ["varisat-dimacs/src/lib.rs: DimacsParser::{take_formula,parse_incremental,check_header}"]}
{"id": "C06", "title": "DIMACS numbers are read exactly or rejected", "statement": "A run of decimal digits is accepted as a literal or terminator exactly when its numeric value is at most 2^28, in which case the literal produced has exactly that value and the preceding sign; larger values are always reported as an error, never wrapped or truncated.", "quantifier": "all digit strings of any length, including leading zeros", "why_tests_cant": "Digit strings are unbounded and the overflow test is a two-step comparison whose boundary is one digit value wide.", "anchors": ["varisat-dimacs/src/lib.rs: DimacsParser::parse_chunk (digit branch), finish_literal"]}
{"id": "C07", "title": "The header is enforced", "statement": "If a header is present and parsing succeeds, the formula contains exactly the announced number of clauses, its variable count equals the announced number, and no literal uses a larger variable; if the input violates one of these an error is returned.", "quantifier": "all byte strings containing a header line, at any position", "why_tests_cant": "Every input of the format must be covered; a silent mismatch hides truncated input files.", "anchors": ["varisat-dimacs/src/lib.rs: DimacsParser::{parse_header_line,check_header,eof}"]}
{"id": "C08", "title": "Parsing accepts exactly the documented DIMACS language", "statement": "Input without header is accepted exactly when, after dropping comment lines, it is a sequence of blank-separated decimal integers (optional single minus sign) in range whose last one is a 0, and then the clauses are the maximal runs between zeros; anything else is reported as an error, with the line number of the offending line.", "quantifier": "all byte strings", "why_tests_cant": "The accepted language is infinite; tests list a dozen accepted and rejected strings.", "anchors": ["varisat-dimacs/src/lib.rs: DimacsParser::{parse_chunk,eof,finish_literal}", "manual/src/formats/dimacs.md"]}
{"id": "C09", "title": "Variable-length integers round-trip", "statement": "Every 64-bit unsigned integer written with the proof format's variable-length encoding is read back as the same integer, consuming exactly the bytes written, no matter what bytes follow.", "quantifier": "all 2^64 values and all following byte strings", "why_tests_cant": "2^64 values with a special case at 56 bits; only boundary samples can be tested.", "anchors": ["varisat-internal-proof/src/vli_enc.rs: write_u64, read_u64, read_u64_fast"]}
{"id": "C10", "title": "Decoding an integer does not depend on the read buffer", "statement": "Reading a variable-length integer gives the same value and consumes the same bytes whether the reader happens to have 16 or more bytes buffered (fast path) or fewer (byte-wise path), for every byte string, including ones no writer produces; a string that ends inside the integer is an error, never a value.", "quantifier": "all byte strings and all buffer fill levels", "why_tests_cant": "The two paths are separate code and which one runs depends on I/O timing.", "anchors": ["varisat-internal-proof/src/vli_enc.rs: read_u64, read_u64_fast"]}
{"id": "C11", "title": "Proof files decode to the steps that were written", "statement": "Any sequence of proof steps written in the native binary format is read back by the proof parser as the same sequence of steps.", "quantifier": "all finite sequences of proof steps of all kinds, with arbitrary literals, hashes and nested lists", "why_tests_cant": "Step payloads are unbounded lists; each of the 18 tags has its own layout.", "anchors": ["varisat-internal-proof/src/binary_format.rs: write_step, Parser::parse_step"]}
{"id": "C12", "title": "A truncated proof is never accepted", "statement": "If a proof file is cut at any byte position before its end marker is complete, checking it ends in an error; in particular the checker never reports success for a proper prefix of a proof.", "quantifier": "all proofs and all cut positions", "why_tests_cant": "Crash points are arbitrary byte positions.", "anchors": ["varisat-checker/src/state.rs: CheckerState::check_proof", "varisat-internal-proof/src/binary_format.rs: Parser::parse_step, CODE_END"]}
{"id": "C13", "title": "Checker soundness: accepted refutations are refutations", "statement": "If the checker accepts a proof (starting from any formula given to it plus clauses added during the proof) and the empty clause has been derived, then the conjunction of all clauses added is unsatisfiable.", "quantifier": "all formulas and all proof step sequences, including adversarial ones", "why_tests_cant": "The proof is untrusted input; soundness must hold for every byte string.", "anchors": ["varisat-checker/src/state.rs: CheckerState::{check_step,check_proof}", "varisat-checker/src/rup.rs", "varisat-checker/src/clauses.rs"]}
{"id": "C14", "title": "Checker soundness: every accepted derived clause is implied", "statement": "Every clause the checker accepts as an asymmetric-tautology step, and every unit clause it accepts, is a logical consequence of the clauses added before it.", "quantifier": "all formulas and proof step sequences, all hash-bit settings (hash collisions included)", "why_tests_cant": "Adversarial proofs may use colliding hashes, reused or deleted clauses, tautologies, duplicated literals.", "anchors": ["varisat-checker/src/rup.rs: check_clause_with_hashes", "varisat-checker/src/state.rs: check_at_clause_step, check_unit_clauses_step"]}
{"id": "C15", "title": "Checker soundness: accepted failed assumptions really fail", "statement": "If the checker accepts a failed-assumptions step, every listed literal is one of the current assumptions and the clauses added so far are unsatisfiable together with the listed literals.", "quantifier": "all formulas, assumption sets and proof step sequences", "why_tests_cant": "Includes contradictory assumptions and already-unsatisfiable databases; adversarial proofs.", "anchors": ["varisat-checker/src/state.rs: check_failed_assumptions_step, check_step (Assumptions)"]}
{"id": "C16", "title": "Accepted deletions never lose constraints", "statement": "As long as no variable is deleted, after any accepted sequence of steps the irredundant clauses held by the checker together with its unit clauses have exactly the same satisfying assignments as all clauses added so far, and all redundant clauses are implied by them.", "quantifier": "all formulas and accepted proof step sequences", "why_tests_cant": "Depends on reference counts, redundancy flags and hash buckets across arbitrary histories.", "anchors": ["varisat-checker/src/state.rs: check_delete_clause_step", "varisat-checker/src/clauses.rs: store_clause, delete_clause"]}
{"id": "C17", "title": "Accepted models are models", "statement": "If the checker accepts a model step, the assignment (completed by the known unit clauses) satisfies every clause added so far and every current assumption.", "quantifier": "all formulas, assumption sets and accepted proof step sequences", "why_tests_cant": "Model steps can occur after any history of additions, deletions and variable removals.", "anchors": ["varisat-checker/src/state.rs: check_model_step, check_delete_var_step"]}
{"id": "C18", "title": "Clause identity is order-independent", "statement": "The hash of a clause does not depend on the order of its literals, and canonicalisation maps two literal lists to the same stored clause exactly when they contain the same set of literals; a clause containing a literal and its negation is always recognised as tautological.", "quantifier": "all literal lists and all permutations of them", "why_tests_cant": "Literal lists are unbounded, n! permutations.", "anchors": ["varisat-internal-proof/src/lib.rs: clause_hash, lit_hash", "varisat-checker/src/sorted_lits.rs: copy_canonical", "varisat-checker/src/hash.rs: ClauseHasher::clause_hash"]}
{"id": "C19", "title": "Clause reference counting behaves like a multiset", "statement": "For clauses of at least two literals, the checker's database after any accepted history holds exactly the clauses added more often than deleted, with matching irredundant and redundant multiplicities, and a deletion of a clause that is not currently present is rejected.", "quantifier": "all sequences of accepted additions and deletions, all hash collisions", "why_tests_cant": "Interleavings of redundant/irredundant duplicates are unbounded.", "anchors": ["varisat-checker/src/clauses.rs: store_clause, delete_clause"]}
{"id": "C20", "title": "Clause ids are never reused", "statement": "The ids the checker hands to proof processors for newly stored clauses are strictly increasing along the proof, so two different stored clauses never share an id.", "quantifier": "all proofs", "why_tests_cant": "Must hold across arbitrarily long histories with duplicates, tautologies and deletions.", "anchors": ["varisat-checker/src/clauses.rs: add_clause, store_clause", "varisat-checker/src/state.rs: check_at_clause_step"]}
{"id": "C21", "title": "The propagation list reported for an accepted clause is a valid RUP justification", "statement": "For each accepted asymmetric-tautology clause the list of clause ids handed to processors (and written to LRAT) names only clauses currently stored, and assuming the clause false, each listed clause in order becomes unit and is propagated, the last one becoming falsified.", "quantifier": "all formulas and accepted steps", "why_tests_cant": "LRAT output is consumed by another verified checker; validity must hold for each generated line.", "anchors": ["varisat-checker/src/rup.rs: check_clause_with_hashes", "varisat-lrat/src/lib.rs: WriteLrat::process_step"]}
{"id": "C22", "title": "Checker completeness on well-ordered hints", "statement": "If the listed hashes name stored clauses that, assuming the clause false and in the given order, each propagate a literal until one is falsified, then the checker accepts the clause.", "quantifier": "all databases, clauses and hint lists", "why_tests_cant": "Rejecting valid proofs makes the solver's self-check fail; must hold for any number of hints and colliding clauses.", "anchors": ["varisat-checker/src/rup.rs: check_clause_with_hashes"]}
{"id": "C23", "title": "Internal garbage collection and rehashing in the checker are invisible", "statement": "Compacting the literal buffer, and changing the number of hash bits or the variable names used for hashing, changes neither the set of stored clauses, their literals, ids nor counts, nor any later lookup by literals.", "quantifier": "all database states and all hash-bit settings and renamings", "why_tests_cant": "Triggered by size thresholds after long histories.", "anchors": ["varisat-checker/src/clauses.rs: collect_garbage, ClauseLits", "varisat-checker/src/hash.rs: rehash"]}
{"id": "C24", "title": "LRAT output is decodable", "statement": "Every line the LRAT writer emits, textual or compact binary, can be read back unambiguously to the clause id, literals, propagation ids or deleted ids that were reported; deletions are never lost and never reordered after a later use of the id.", "quantifier": "all sequences of checked proof steps", "why_tests_cant": "Output length is unbounded; deletion batching depends on step history.", "anchors": ["varisat-lrat/src/lib.rs: WriteLrat::{process_step,open_delete,close_delete,write_ids,write_lits}"]}
{"id": "C25", "title": "DRAT output is decodable and complete", "statement": "In DRAT mode, textual or binary, the emitted bytes decode uniquely to the sequence of clause additions and deletions performed; the binary literal code is injective for all supported literals.", "quantifier": "all sequences of proof steps", "why_tests_cant": "Unbounded sequences, variable-length binary encoding.", "anchors": ["varisat/src/proof/drat.rs: drat_step, write_step, write_binary_step"]}
{"id": "C26", "title": "SAT answers are correct", "statement": "When solve returns true, the assignment returned by model satisfies every clause ever added and contains every current assumption.", "quantifier": "all formulas, incremental histories of clause additions and assumptions, and all search schedules (decisions, restarts, reductions)", "why_tests_cant": "The search space is unbounded and depends on heuristics.", "anchors": ["varisat/src/solver.rs: Solver::solve, Solver::model", "varisat/src/cdcl.rs: conflict_step", "varisat/src/model.rs"]}
{"id": "C27", "title": "UNSAT answers are correct", "statement": "When solve returns false with no assumptions involved, the conjunction of all clauses ever added is unsatisfiable; when it returns false under assumptions, the clauses together with the assumptions are unsatisfiable.", "quantifier": "all formulas, incremental histories and search schedules", "why_tests_cant": "No finite set of formulas can exclude an unsound learned clause.", "anchors": ["varisat/src/cdcl.rs: conflict_step, find_conflict", "varisat/src/analyze_conflict.rs", "varisat/src/assumptions.rs"]}
{"id": "C28", "title": "Failed cores are correct", "statement": "After an unsatisfiable solve under assumptions, failed_core returns a subset of the assumptions which is already unsatisfiable together with the formula.", "quantifier": "all formulas, assumption lists and search states", "why_tests_cant": "The core is extracted by a backward walk over an arbitrary implication graph.", "anchors": ["varisat/src/assumptions.rs: analyze_assumption_conflict, enqueue_assumption", "varisat/src/solver.rs: failed_core"]}
{"id": "C29", "title": "Learned clauses are implied and asserting", "statement": "The clause learned from any conflict is a logical consequence of the clause database; all of its literals are false under the current assignment; exactly one of them belongs to the current decision level, and after backtracking to the reported level all others are still false while that one is unassigned.", "quantifier": "all databases, trails and conflicts reachable by propagation", "why_tests_cant": "Implication graphs are unbounded.", "anchors": ["varisat/src/analyze_conflict.rs: analyze_conflict, add_literal"]}
{"id": "C30", "title": "Clause minimisation preserves implication", "statement": "Recursive minimisation returns a subset of the learned clause's literals, keeps the asserting literal first, and the shorter clause is still implied by the clause database; the Bloom filter of levels only affects speed, not the result's soundness.", "quantifier": "all implication graphs and learned clauses", "why_tests_cant": "DFS with shared marking over unbounded graphs.", "anchors": ["varisat/src/analyze_conflict.rs: minimize_clause, LevelAbstraction"]}
{"id": "C31", "title": "Propagation is sound and complete", "statement": "Unit propagation only assigns literals implied by the clauses and the current decisions; when it finishes without conflict, no clause is falsified and no clause has all but one literal false with the last one unassigned; a reported conflict is a clause with all literals false.", "quantifier": "all databases, watch states and assignments reachable in the solver", "why_tests_cant": "The watch-list invariant must survive every interleaving of propagation, conflicts and backtracking.", "anchors": ["varisat/src/prop.rs: propagate", "varisat/src/prop/long.rs: propagate_long", "varisat/src/prop/binary.rs: propagate_binary", "varisat/src/prop/watch.rs"]}
{"id": "C32", "title": "Backtracking restores the earlier state", "statement": "Backtracking to a level removes exactly the assignments made after that level, in particular keeps all earlier ones with their reasons and levels, makes removed variables available for decisions again, and the trail and assignment always agree.", "quantifier": "all sequences of decisions, propagations and backtracks", "why_tests_cant": "Any history of the search.", "anchors": ["varisat/src/prop/assignment.rs: backtrack, enqueue_assignment, Trail"]}
{"id": "C33", "title": "Clause storage and garbage collection keep every live clause", "statement": "A clause reference returned when a long clause is added keeps resolving to the same literals until the next collection; a garbage collection keeps exactly the non-deleted clauses with identical literals, order and metadata, and the clause referred to as reason of an assignment still has that assignment as its first literal.", "quantifier": "all sequences of additions, deletions and collections", "why_tests_cant": "Compaction is triggered by thresholds; references are raw offsets into a buffer.", "anchors": ["varisat/src/clause/alloc.rs: ClauseAlloc", "varisat/src/clause/gc.rs: collect_garbage_now, mark_asserting_clauses", "varisat/src/clause/db.rs"]}
{"id": "C34", "title": "Clause header fields are independent", "statement": "Writing one of the packed header fields (length, deleted, tier, mark, glue, active) is read back as written (glue saturating at its maximum) and leaves every other field unchanged, for every header value.", "quantifier": "all 2^96 header values and all field values", "why_tests_cant": "Bit-field packing; a wrong shift shows only for particular combinations.", "anchors": ["varisat/src/clause/header.rs: ClauseHeader"]}
{"id": "C35", "title": "The decision queue always yields the most active available variable", "statement": "After any sequence of bump, decay, make_available, make_unavailable and next operations, next returns an available variable with maximal activity among the available ones, each available variable is returned exactly once, and none is ever lost or duplicated.", "quantifier": "all operation sequences and all activity values (ordering abstracted to any total order monotone under rescaling)", "why_tests_cant": "Heap states are unbounded; position map consistency is a global invariant.", "anchors": ["varisat/src/decision/vsids.rs: Vsids"]}
{"id": "C36", "title": "Restart intervals follow the Luby sequence", "statement": "The n-th value produced by the restart sequence generator equals the n-th element of the Luby sequence, for every n.", "quantifier": "all n", "why_tests_cant": "Infinite sequence, tests check a prefix.", "anchors": ["varisat/src/schedule/luby.rs: LubySequence::advance"]}
{"id": "C37", "title": "Variable name maps stay bijective", "statement": "At any time the mapping between user, global and solver variables is a partial bijection: looking a variable up forwards and then backwards gives it back; two different user variables never share a global or solver variable; freed indices are only reused once unmapped.", "quantifier": "all histories of variable creation, hiding, observing and elimination", "why_tests_cant": "Depends on free lists and arbitrary interleavings.", "anchors": ["varisat/src/variables.rs: Variables", "varisat/src/variables/var_map.rs: VarMap, VarBiMap, VarBiMapMut"]}
{"id": "C38", "title": "Root-level simplification preserves the formula", "statement": "Removing satisfied clauses and false literals after new unit clauses were found, and dropping their variables, preserves satisfiability and every model restricted to the remaining variables, for binary and long clauses alike.", "quantifier": "all databases and sets of proven units", "why_tests_cant": "In-place compaction of clause buffers over arbitrary databases.", "anchors": ["varisat/src/unit_simplify.rs: unit_simplify, prove_units", "varisat/src/binary.rs: simplify_binary"]}
{"id": "C39", "title": "Loading a clause preserves its meaning", "statement": "Adding a clause to the solver (which sorts, removes duplicate and root-false literals, drops tautologies and satisfied clauses) leaves the solver's clause set equivalent to the previous set plus that clause; the solver reports unsatisfiable at once when the clause is empty after this.", "quantifier": "all clauses and solver states at the root level", "why_tests_cant": "All clause shapes and root assignments.", "anchors": ["varisat/src/load.rs: load_clause"]}
{"id": "C40", "title": "Database reduction deletes only redundant, non-asserting clauses", "statement": "Reducing the learned clause database never deletes an irredundant clause or one that is the reason of a current assignment, and keeps the per-tier counts exact.", "quantifier": "all database states", "why_tests_cant": "Depends on activity order, flags and duplicates in the tier lists.", "anchors": ["varisat/src/clause/reduce.rs: reduce_locals, reduce_mids", "varisat/src/clause/db.rs: try_delete_clause, set_clause_tier, delete_clause"]}
{"id": "C41", "title": "The propagation hints of a learned clause justify it", "statement": "The list of clause hashes attached to a learned clause is, in the given order, a unit-propagation refutation of the clause's negation starting from the proven unit clauses; so a checker that holds the same clauses accepts it.", "quantifier": "all implication graphs, conflicts and minimisations", "why_tests_cant": "Ordering hints from two traversals (analysis and minimisation) is a global property of the graph.", "anchors": ["varisat/src/analyze_conflict.rs: analyze_conflict, minimize_clause (clause_hashes, unordered_clause_hashes)"]}
{"id": "C42", "title": "Glue is the number of decision levels, and scratch flags are left clean", "statement": "The computed glue of a clause equals the number of distinct decision levels of its literals minus one, and after each computation the shared scratch flags are all false again.", "quantifier": "all clauses and implication graphs", "why_tests_cant": "Shared mutable scratch; leaking one flag corrupts later unrelated computations.", "anchors": ["varisat/src/glue.rs: compute_glue", "varisat/src/tmp.rs: TmpFlags", "varisat/src/assumptions.rs: analyze_assumption_conflict"]}
{"id": "C43", "title": "Configuration updates are atomic", "statement": "Applying a configuration update either returns an error and changes nothing, or sets exactly the given fields, which are then all within their documented ranges; merging two updates behaves like applying the first and then the second.", "quantifier": "all configurations and updates", "why_tests_cant": "All combinations of present/absent/out-of-range fields.", "anchors": ["varisat-internal-macros/src/lib.rs: derive_config_update", "varisat/src/config.rs: SolverConfig"]}
{"id": "C44", "title": "Solver errors are sticky and reported once", "statement": "After a proof-writing or self-check error during any operation, no later solve call returns a result: the first one returns the error and the following ones panic; an error never turns into a SAT or UNSAT answer.", "quantifier": "all operation sequences and all points where an I/O error can occur", "why_tests_cant": "Crash points are arbitrary writes.", "anchors": ["varisat/src/solver.rs: Solver::solve, check_for_solver_error", "varisat/src/proof.rs: handle_io_errors, handle_self_check_result"]}
{"id": "C45", "title": "Interrupted or incremental solving can be resumed", "statement": "Clauses may be added and assumptions changed between any two solve calls; each answer is correct for the clauses and assumptions at that time, regardless of learned clauses and root assignments kept from earlier calls.", "quantifier": "all incremental histories", "why_tests_cant": "Histories are unbounded and interact through retained learned clauses.", "anchors": ["varisat/src/solver.rs: Solver::{solve,assume,add_clause}", "varisat/src/assumptions.rs: set_assumptions", "varisat/src/load.rs: load_clause"]}
{"id": "C46", "title": "A rejected proof leaves no half-applied step", "statement": "When the checker rejects a step with an error, its clause database and assignment are as before the step, so a caller that keeps the checker after an error (for example the incremental API) still gets sound answers and no panic.", "quantifier": "all database states and rejected steps", "why_tests_cant": "Error exits in the middle of propagation happen at arbitrary points.", "anchors": ["varisat-checker/src/rup.rs: check_clause_with_hashes (error paths)", "varisat-checker/src/state.rs: check_step"]}
{"id": "C47", "title": "Hash-bit management keeps solver and checker in step", "statement": "Whenever the solver writes a clause hash, the number of hash bits it uses equals the number the checker has been told so far, and it grows with the number of clauses so that it never shrinks and never exceeds 64.", "quantifier": "all proof step sequences", "why_tests_cant": "Depends on the running clause count over unbounded histories.", "anchors": ["varisat/src/proof.rs: add_step, write_varisat_step, initial_hash_bits", "varisat-checker/src/state.rs: check_step (ChangeHashBits)"]}
{"id": "C48", "title": "CLI exit status matches the answer", "statement": "The command line solver's exit status is 10 exactly when the printed verdict is SATISFIABLE, 20 exactly when it is UNSATISFIABLE, and the printed value line lists every literal of the model terminated by 0.", "quantifier": "all solver outcomes and error outcomes", "why_tests_cant": "Scripts rely on the exact mapping for every outcome including errors.", "anchors": ["varisat-cli/src/main.rs: main, main_with_err"]}
{"id": "C49", "title": "The answer of the command line solver is about its input", "statement": "When the command line solver exits with 10, every clause of the DIMACS input contains a literal of the printed value line, which lists no literal together with its negation; when it exits with 20 the clauses of the input are unsatisfiable; no answer is printed for an input that is not DIMACS.", "quantifier": "all inputs, chunkings, configurations and heuristic choices", "why_tests_cant": "Combines parser, solver and printing for every input; wrong interplay (a chunk added twice, a literal printed with another sign) may need special inputs.", "anchors": ["varisat-cli/src/main.rs: main_with_err", "varisat/src/solver.rs: add_dimacs_cnf, solve, model", "varisat-dimacs/src/lib.rs: parse_incremental"]}
{"id": "C50", "title": "The verdict and transcript of the command line checker", "statement": "`varisat --check` exits with 0 exactly when it prints the verdict VERIFIED; if it then also printed the transcript line `t UNSAT`, the clauses of the input file together with the clauses that the proof file itself adds are unsatisfiable.", "quantifier": "all inputs, proof files and error outcomes", "why_tests_cant": "Must hold for every byte string given as a proof.", "anchors": ["varisat-cli/src/check.rs: check_main", "varisat-cli/src/check/transcript.rs: Transcript", "varisat-checker/src/lib.rs: Checker"]}
{"id": "C51", "title": "The solver passes its own checks", "statement": "Self checking and proof output do not change what the solver does: every call that works without them works with them and returns the same result, and the only error they can cause is a failure to write the proof file. DRAT output is only for histories without assumptions and without clauses added after solve. After an answer `unsatisfiable` without assumptions the checker knows the formula to be unsatisfiable and its processors have been told of the empty clause.", "quantifier": "all histories of calls, heuristic choices, proof formats, transcripts and I/O outcomes", "why_tests_cant": "Every step of every search must be justified by the hashes given with it; tests only replay particular searches.", "anchors": ["varisat/src/solver.rs: enable_self_checking, write_proof, solve", "varisat/src/proof.rs: add_step, add_clause, solve_finished, handle_self_check_result", "varisat-checker/src/internal.rs: SelfChecker"]}
{"id": "C52", "title": "A checker accepts the proof file", "statement": "If `write_proof` is used with the native format and `close_proof` succeeds, a checker that is given the clauses added before the first `solve` accepts the bytes of the file, and it refutes the formula if and only if the solver did.", "quantifier": "all histories of calls, heuristic choices and clause hashes written to the file", "why_tests_cant": "Every step of every search has to survive the change of hash widths, the encoding and the order in which a checker sees clauses and steps; tests only check particular files.", "anchors": ["varisat/src/solver.rs: write_proof, close_proof", "varisat/src/proof.rs: add_step, close_proof", "varisat-checker/src/lib.rs: check_proof", "varisat-internal-proof/src/binary_format.rs: write_step, Parser::parse_step"]}
{"id": "C53", "title": "The solver panics exactly when the rules for variables are broken", "statement": "A call panics if it uses a witness variable in a clause or an assumption, or changes the mode of a variable that is currently assumed (only a clause added after a contradiction is ignored unseen); no other call panics, whatever calls were made before.", "quantifier": "all histories of calls, heuristic choices and arguments", "why_tests_cant": "Every index, every expect and every assert in propagation, conflict analysis, simplification and variable management has to hold in every reachable state; tests reach only a few of them.", "anchors": ["varisat/src/solver.rs: add_clause, assume, solve, hide_var, witness_var, sample_var, observe_internal_vars", "varisat/src/variables.rs: global_from_user, set_sampling_mode", "varisat/src/assumptions.rs: set_assumptions, enqueue_assumption"]}
{"id": "C54", "title": "solve always ends", "statement": "Every call of `solve` ends, whatever calls were made before and whatever heuristics and configuration are used, and it returns true if and only if some assignment satisfies the clauses added so far and the current assumptions. The first call over m < 64 variables with restart scale c makes at most (c*m+1)*2^m+2 search steps.", "quantifier": "all histories of calls, heuristic choices and configurations", "why_tests_cant": "That restarts, clause deletion and simplification never make the search repeat itself for ever is a statement about infinitely many steps; a test that ends shows nothing about the next formula.", "anchors": ["varisat/src/solver.rs: solve", "varisat/src/schedule.rs: schedule_step", "varisat/src/cdcl.rs: conflict_step, find_conflict", "varisat/src/schedule/luby.rs: advance"]}
{"id": "C55", "title": "Models and failed cores are available exactly when they should be", "statement": "`model` returns a model from the moment `solve` returned true until a clause is added or assumptions are set, and None at all other times. `failed_core` returns a core from the moment `solve` returned false until assumptions are set. Neither panics.", "quantifier": "all histories of calls, heuristic choices and configurations", "why_tests_cant": "The answer is a piece of state that every call may keep or discard, and the model is indexed by variables that later calls create; the histories are unbounded.", "anchors": ["varisat/src/solver.rs: model, failed_core", "varisat/src/model.rs: reconstruct_global_model", "varisat/src/load.rs: load_clause", "varisat/src/assumptions.rs: set_assumptions"]}
{"id": "C56", "title": "The command line tool always ends with a result", "statement": "The program ends without a panic for all arguments, files and I/O errors. Asked for help it ends with status 0. Otherwise it ends with status 1 exactly if an option is not accepted, the input cannot be read or is not a DIMACS file, or the proof file cannot be created. Otherwise, if nothing fails while solving, it ends with status 10 if the clauses of the file are satisfiable and with status 20 if they are not.", "quantifier": "all arguments, inputs, chunkings, configurations and heuristic choices", "why_tests_cant": "It combines termination and panic freedom of parser and solver for unbounded inputs.", "anchors": ["varisat-cli/src/main.rs: main, main_with_err", "varisat/src/solver.rs: add_dimacs_cnf, solve, model"]}
{"id": "C57", "title": "Proofs written for a formula are verified by --check, which reports the answer", "statement": "If the clauses of a DIMACS file are added to a solver that writes a native proof, solve is called and the proof is closed without error, then `varisat --check` on the file and the proof exits with status 0 and prints `s VERIFIED`. It prints `t SAT` exactly if solve returned true, and `t UNSAT` exactly if solve returned false.", "quantifier": "all input files without tautological clauses, chunkings, heuristic choices, proof sizes and buffer sizes of the reader", "why_tests_cant": "The statement composes parser, solver, proof encoder with its changing hash sizes, proof decoder and checker over all formulas and all runs of the search.", "anchors": ["varisat-cli/src/main.rs: main_with_err", "varisat-cli/src/check.rs: check_main", "varisat/src/proof.rs: add_step, close_proof", "varisat-checker/src/lib.rs: check_proof", "varisat-cli/src/check/transcript.rs: process_step"]}
{"id": "C58", "title": "Every call contributes its own part to the proof", "statement": "The steps of the proof are those of the calls in order. add_clause contributes exactly one clause, or nothing if the formula is already known to be unsatisfiable. A solve that finds a new model contributes derived clauses and deletions followed by the model; a solve that fails contributes a derivation and then the failed assumptions, unless the formula is unsatisfiable or the answer was known. Repeating solve contributes nothing. assume contributes the assumptions. Other calls derive nothing and add no clause; only hide_var deletes variables. So the number of models in the proof is the number of times solve returned true with a new model.", "quantifier": "all histories of calls including hidden and observed variables, all heuristic choices", "why_tests_cant": "Steps are emitted from many places of the search loop; that none of them emits an input clause, a second model or an answer in the wrong place holds for all runs only by an induction over the search.", "anchors": ["varisat/src/load.rs: load_clause", "varisat/src/model.rs: reconstruct_global_model", "varisat/src/assumptions.rs: analyze_assumption_conflict", "varisat/src/unit_simplify.rs", "varisat/src/cdcl.rs: conflict_step"]}
{"id": "C59", "title": "DRAT files are valid proofs and refute the formula exactly when it is unsatisfiable", "statement": "If a solver is created with a DRAT proof target (text or binary), clauses are added, solve is called and the proof is closed, then no call panics or fails, and the bytes written are a DRAT file all of whose lines a DRAT checker given the clauses accepts: each added clause follows by unit propagation from the clauses at hand and each deleted clause is present. The file refutes the clauses exactly if they are unsatisfiable, which is exactly when solve returns false.", "quantifier": "all lists of clauses over 2^31 variables, both formats, with and without self checking, all heuristic choices", "why_tests_cant": "Validity of every line depends on the whole history of learned, simplified and deleted clauses; a checker run on samples says nothing about other runs of the search.", "anchors": ["varisat/src/proof/drat.rs", "varisat/src/proof.rs: add_step, close_proof", "varisat/src/solver.rs: write_proof, solve, close_proof", "varisat/src/cdcl.rs: conflict_step", "varisat/src/unit_simplify.rs", "varisat/src/clause/reduce.rs"]}
{"id": "C60", "title": "The transcript of a checked proof is right", "statement": "The transcript passed to proof processors lists the clauses added, the assumptions and the results. Read on its own it is right about every result: a model satisfies the clauses and assumptions listed before it, failed assumptions are among those assumed and contradict the clauses listed, and 'unsat' means the clauses listed are unsatisfiable. The clauses listed are those added, in order, and none is missing unless those listed are already contradictory; assumptions and results are those of the proof in order. (A model may be wrong only if the transcript also says the clauses are contradictory.)", "quantifier": "all formulas and all accepted proofs, including incremental ones with hidden variables", "why_tests_cant": "The transcript is translated from internal to user variables and is emitted from many branches of the checker; that no accepted proof, however strange, yields a wrong statement needs an invariant over all steps.", "anchors": ["varisat-checker/src/transcript.rs: transcript_step", "varisat-checker/src/processing.rs: user_from_proof_var, process_step", "varisat-checker/src/variables.rs: add_user_mapping", "varisat-checker/src/state.rs: check_step"]}
{"id": "C61", "title": "The transcript lines of --check show the transcript", "statement": "When `varisat --check` exits with status 0, the lines starting with 't ' show a transcript of the input and the proof as in C60: one line for each result or set of assumptions with the number of literals, and one line with the exact number of steps for every maximal run of added clauses or variable changes of one kind, in order. A run at the very end is not shown.", "quantifier": "all input files, all proof files and all log messages without line breaks", "why_tests_cant": "The lines come from a counter that is carried over between steps; that counts and order are right for every sequence of steps is an induction over the sequence.", "anchors": ["varisat-cli/src/check/transcript.rs: print_summary, process_step", "varisat-cli/src/check.rs: check_main"]}
{"id": "C62", "title": "LRAT files written by --check are accepted by an LRAT checker", "statement": "When `varisat --check` exits with status 0, the file of --write-lrat or --write-clrat is a well-formed LRAT proof for the input: every added clause has an id that is larger than all ids used before, including those of the input clauses counted in the order of the file; its hints are ids of clauses at hand and propagate to a conflict one after the other; deleted ids exist. If `t UNSAT` was printed, the file derives the empty clause. In particular this holds for every proof written by the solver for the same input, and the empty clause is derived if solve returned unsatisfiable.", "quantifier": "all input files, all proof files, both formats, and all runs of the solver producing a proof", "why_tests_cant": "The ids are assigned by the checker while it drops duplicate clauses, tautologies and clauses after a conflict, and hints are cut and reordered; that they line up with the independent numbering of another checker needs an invariant relating both databases over every proof.", "anchors": ["varisat-lrat/src/lib.rs: WriteLrat::process_step", "varisat-checker/src/clauses.rs: add_clause", "varisat-checker/src/rup.rs: check_clause_with_hashes", "varisat-checker/src/state.rs: process_unit_conflicts", "varisat-cli/src/check.rs: check_main"]}
{"id": "C63", "title": "LRAT files written while solving are accepted by an LRAT checker", "statement": "With an LRAT or compressed LRAT writer attached to a self checking solver, the file written while clauses are added and solve is called is a well-formed LRAT proof for the clauses added: ids increase, hints are ids of clauses at hand that propagate to a conflict one after the other, deleted ids exist, and the empty clause is derived if solve returned unsatisfiable.", "quantifier": "all sequences of added clauses followed by solve, all choices of the heuristics, both formats", "why_tests_cant": "The file results from the solver, the in-process checker and the writer working together; that the ids and hints line up for another checker is a joint invariant over every run.", "anchors": ["varisat/src/solver.rs: add_proof_processor, enable_self_checking", "varisat/src/proof.rs: add_step, solve_finished", "varisat-lrat/src/lib.rs: WriteLrat::process_step", "varisat-checker/src/state.rs: process_unit_conflicts"]}
{"id": "C64", "title": "varisat --proof writes right proof files and leaves the answer alone", "statement": "With --proof, with or without --self-check, varisat prints the same output and returns the same exit status as without these options, as long as the file can be written. The file is a proof in the chosen format for the input: a DRAT or binary DRAT file with only valid steps that is a refutation exactly if the status is 20; an LRAT or compressed LRAT file accepted by an LRAT checker, deriving the empty clause if the status is 20; or a native file which `varisat --check` verifies, showing `t UNSAT` for status 20 and `t SAT` for status 10. If the file cannot be created the status is 1, and status 10 and 20 always are right.", "quantifier": "all inputs, all option sets, all five proof formats, all choices of the heuristics", "why_tests_cant": "The claim spans the parser, the solver, the proof writer, the in-process checker and, for native files, the second program run on the file; it needs the invariants of all of them composed for every input.", "anchors": ["varisat-cli/src/main.rs: main_with_err, banner", "varisat/src/solver.rs: write_proof, close_proof, add_dimacs_cnf, Drop", "varisat/src/proof.rs", "varisat-cli/src/check.rs: check_main"]}
{"id": "C65", "title": "A verdict is not printed before its proof is written", "statement": "Writes to the file of --proof may fail at any time, and so may the LRAT writer. varisat does not panic because of that. It prints the verdict and returns the status of a run without --proof, or it prints `s UNKNOWN` with status 0, and then a write has failed. If a verdict is printed, the proof is complete: all of it was written to the file or handed to the LRAT writer.", "quantifier": "all inputs, all formats, all patterns of failing writes and failing processors, all choices of the heuristics", "why_tests_cant": "There is no way to try all points at which a disk can be full; the claim needs the error state of the proof output as an invariant of every run.", "anchors": ["varisat/src/proof.rs: add_step, flush_proof, handle_io_errors, solve_finished, close_proof", "varisat/src/solver.rs: solve, check_for_solver_error, Drop", "varisat-cli/src/main.rs: main_with_err"]}
{"id": "C66", "title": "New variables were not used before", "statement": "new_var returns a variable that is not in use: it differs from every variable that occurred in an earlier add_clause, assume, witness_var or sample_var or was returned by an earlier new_var or observe call, unless that variable was hidden in between.", "quantifier": "all histories of calls, with any number of calls between the use and new_var", "why_tests_cant": "Variables are recycled through free lists over three namespaces; whether a free index can coincide with a variable still in use depends on the whole history.", "anchors": ["varisat/src/solver.rs: new_var", "varisat/src/variables.rs: new_user_var, next_unmapped_global, solver_from_user, set_sampling_mode, observe_internal_vars", "varisat/src/load.rs: load_clause"]}
{"id": "C67", "title": "Steps of a proof are small", "statement": "Every step the solver passes to the proof mentions only variables created by the calls so far, has at most two literals per variable (each literal once), and names at most one reason clause per variable plus one; only the lists given to assume are as long as the caller makes them. Hence all steps fit the native format and are read back as they were written.", "quantifier": "all histories of calls with fewer than 2^32 variables (2^31 for reading back), any heuristics, any number of solve calls, with hidden variables and assumptions", "why_tests_cant": "The sizes of learned clauses, unit lists, failed cores and their hints depend on the search and on the recycling of variable numbers; a list that grows with the number of conflicts instead of variables shows up only in long runs.", "anchors": ["varisat/src/proof.rs: add_step", "varisat/src/analyze_conflict.rs: analyze_conflict", "varisat/src/assumptions.rs: analyze_assumption_conflict", "varisat/src/variables.rs: next_unmapped_global, new_user_var, next_unmapped_solver", "varisat-internal-proof/src/binary_format.rs: write_step, Parser::parse_step"]}
{"id": "C68", "title": "Propagation stays inside its arrays", "statement": "The raw pointers of the propagation of long clauses never leave the clause buffer and the list of watches, whatever state the search is in, no check fails, and the memory afterwards contains exactly the state after propagation; only literals of stored clauses are changed. The source claims more: that the bound checks keep the function memory safe even if other code violates invariants of the clause database.", "quantifier": "all states of all searches with at most 2^31 variables; all buffers made by sequences of allocator operations; all lists of watches and assignments", "why_tests_cant": "An access outside of an array need not be visible in the results of a run, and which clauses are moved, shortened or deleted before a propagation depends on the whole search.", "anchors": ["varisat/src/prop/long.rs: propagate_long", "varisat/src/prop.rs: propagate", "varisat/src/clause/alloc.rs: check_bounds, header_unchecked_mut, lits_ptr_mut_unchecked"]}
{"id": "C69", "title": "An LRAT writer reports errors of its target when it is flushed, at the latest", "statement": "If no step handed to an LRAT writer and no flush returned an error, then after a flush the target has received exactly the proof; before that it has received a part of it, and no call of the target has failed. A step or flush only fails if the target fails. Dropping the writer completes the file unless the target fails then; at most the contents of the buffer and the end of a line are lost. Such errors while dropping are not reported: without a flush a proof that fits into the buffer is lost without any error.", "quantifier": "all sequences of steps and flushes, text and binary; all targets, which take any number of the bytes they are offered at each call, or fail", "why_tests_cant": "Which calls fail or take only some bytes, and where these calls fall in the proof because of buffering, has too many combinations; tests write to memory and never fail.", "anchors": ["varisat-lrat/src/lib.rs: WriteLrat, process_step, flush, Drop", "varisat-cli/src/main.rs: main_with_err"]}
{"id": "C70", "title": "The numbers of the heuristics never overflow or vanish", "statement": "However long a solver runs, and however its decay factors are reconfigured within the accepted range, no activity of a variable or clause and no bump value ever becomes infinite or NaN, the bump value never becomes zero, and rescaling never turns round the order of two activities; so decisions and clause reduction keep being ordered by activity.", "quantifier": "all sequences of calls (bump, decay, reset, new variables, adding and deleting clauses, changes of the decay factor) with f32 arithmetic rounded to nearest", "why_tests_cant": "Rescaling starts after about 1700 conflicts and interacts with rounding and underflow; a test runs a few calls with one decay factor.", "anchors": ["varisat/src/decision/vsids.rs: Vsids::{bump,decay,rescale,set_decay}", "varisat/src/clause/activity.rs: bump_clause_activity, rescale_clause_activities, decay_clause_activities"]}
{"id": "C71", "title": "The proof is in its target when solve answers and when close_proof returns", "statement": "Proof steps pass through a buffered writer into a target that may take fewer bytes than offered, or fail, at any call. When solve returns an answer, the target holds the complete encoding of every step written so far and no write or flush has failed; when close_proof returns Ok, it holds the complete proof ending with the end marker. At any other time only the contents of the 8 KiB buffer can be missing, and a target that was dropped after an error holds a prefix of the proof. No byte that was accepted without an error is lost without an error being returned.", "quantifier": "all targets (every pattern of short writes and failures of write and flush), all ways of dividing steps into write_all calls, all histories of public calls with a search that emits any steps", "why_tests_cant": "Which bytes are where depends on the interleaving of buffer boundaries, short writes, failures and flushes; tests write to a Vec that never fails.", "anchors": ["varisat/src/proof.rs: Proof::write_proof, add_step, write_varisat_step, flush_proof, close_proof, solve_finished, handle_io_errors", "varisat/src/solver.rs: Solver::{solve,write_proof,close_proof,check_for_solver_error}"]}
{"id": "C72", "title": "varisat prints no verdict before the bytes of its proof are in the file", "statement": "varisat --proof writes through a buffered writer to a file that may take fewer bytes than offered, or fail, at any call. The program ends without panicking whatever the file does. If it prints SATISFIABLE or UNSATISFIABLE, the verdict is that of a run without a proof, and the file on disk holds the complete proof: a DRAT file is readable and valid for the clauses of the input and is a refutation exactly if the status is 20, and a native file is accepted by varisat --check. It prints UNKNOWN with status 0 only if the file (or the LRAT writer) has failed. If no call fails, output, status and file do not depend on how many bytes each call takes.", "quantifier": "all inputs, configurations and proof formats, all patterns of short writes and failures of write and flush, all ways of dividing steps into write_all calls, all searches", "why_tests_cant": "A test sees a disk that does not fail, or one failure at one place; whether a verdict can come before buffered bytes reach the file depends on all interleavings of buffer boundaries, short writes, failures and the drop order at exit.", "anchors": ["varisat-cli/src/main.rs: main, main_with_err", "varisat/src/proof.rs: Proof, flush_proof, solve_finished, close_proof", "varisat/src/solver.rs: Solver::solve, impl Drop for Solver"]}
{"id": "C73", "title": "What the solver says stays right after proof errors", "statement": "Proof output or self checking may fail at any write, flush or step. solve always returns: an answer, which is right for the clauses added and the assumptions made so far, or the error of the proof output, never Interrupted. The search stops before its next round after the error. Whenever model() returns a model, also after an error, it satisfies all clauses and contains all assumptions; whenever failed_core() returns a core, clauses and assumptions are unsatisfiable. After an error solve panics as documented, and all other calls do exactly what they do on a solver without proof output. A call of solve that meets no error returns the same answer as if its proof steps were processed after the search.", "quantifier": "all histories of calls including those that go on after errors, all formats and processors, all sets of failing I/O operations, all configurations and choices of the heuristics", "why_tests_cant": "Errors can occur at any step of an unbounded search, and what is left behind is an arbitrary intermediate state.", "anchors": ["varisat/src/solver.rs: Solver::solve, check_for_solver_error, model, failed_core", "varisat/src/schedule.rs: schedule_step", "varisat/src/proof.rs: add_step, handle_io_errors, handle_self_check_result"]}
{"id": "C74", "title": "Answers depend on the formula only", "statement": "Two solvers are asked about formulas, after whatever earlier calls, with whatever configuration, proof output and self checks. If the formulas have the same clauses up to the order of clauses and literals, repetitions, tautologies and subsumed clauses, and the same set of assumptions, both give the same answer. More clauses or assumptions never turn an unsatisfiable formula into a satisfiable one. Consequences may be added, unit clauses and assumptions may be exchanged, and variables may be renamed and their literals exchanged, without a change of the answer. A formula is satisfiable exactly if it is under one of a literal and its negation. A model assumed in another solver is confirmed, and so is a failed core. The exit status of the command line tool does not depend on layout, options and proof file.", "quantifier": "for all pairs of histories of calls, all configurations and parameters of the search, all proof formats and failing targets, all renamings, and all DIMACS files", "why_tests_cant": "Metamorphic tests compare pairs of runs; that no pair differs is a statement about all formulas and all histories.", "anchors": ["varisat/src/solver.rs:138-176", "varisat/src/config.rs", "varisat/src/load.rs", "varisat/src/assumptions.rs", "varisat-cli/src/main.rs"]}
{"id": "C75", "title": "All solutions can be enumerated", "statement": "The loop that calls solve, reads the model and adds the clause of the negated literals of the model, or of those literals whose variables are in a chosen set, until solve returns false, always ends. Each model found satisfies the formula and the assumptions, differs from all others in the value of a chosen variable, and each solution of the formula agrees in the chosen variables with exactly one of the models. The number of rounds is at most two to the number of variables, and equals the number of values the chosen variables have in the solutions if all variables are used in clauses or assumptions.", "quantifier": "for all formulas, assumptions, earlier calls without hidden, observed or witness variables, and all parameters of the search", "why_tests_cant": "It is about unboundedly many incremental calls for any formula; a lost or repeated model in one search breaks it.", "anchors": ["varisat/src/solver.rs:138-204", "varisat/src/load.rs", "varisat/src/model.rs"]}
{"id": "C76", "title": "Clauses can be switched on and off with assumptions", "statement": "Groups of clauses are added with the negation of a switch, a literal of a variable used for nothing else, as a further literal, and the switches of some groups are assumed. Then solve answers what any solver answers that has only the clauses without a switch and the clauses of the groups whose switches are assumed, also after earlier questions with other switches, and after groups that are switched off were dropped by adding the negated switch as a unit clause. The switches in a failed core name groups that are unsatisfiable together with the clauses without a switch.", "quantifier": "for all formulas, groups, choices of switches, other assumptions, histories of calls without hidden and observed variables, and all parameters of the search, with and without proof output", "why_tests_cant": "It compares an incremental solver after any history of questions with a new solver; learned clauses that keep a switched off group alive show up in few histories.", "anchors": ["varisat/src/solver.rs:138-204", "varisat/src/assumptions.rs", "varisat/src/analyze_conflict.rs", "varisat/src/load.rs"]}
{"id": "C77", "title": "A minimal set of failed assumptions can be found with assume and solve alone", "statement": "When a formula is unsatisfiable with some assumptions, the loop that leaves out each assumption in turn, asks again, and drops the assumption for good if the answer is still false, always ends. The assumptions that are left are among those at the start; any solver with the same clauses answers false when it is asked with all of them, and true when it is asked with only some of them. None are left exactly if the formula is unsatisfiable without assumptions. This does not depend on the failed cores reported.", "quantifier": "for all formulas, lists of assumptions, earlier calls without hidden, observed or witness variables, and all parameters of the search", "why_tests_cant": "It is about unboundedly many incremental calls with changing assumptions; an assumption that lingers in the solver after it was left out shows up in few histories.", "anchors": ["varisat/src/solver.rs:138-204", "varisat/src/assumptions.rs", "varisat/src/analyze_conflict.rs"]}
