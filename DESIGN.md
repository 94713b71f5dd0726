# Formal model of varisat: design

The source is `/repo` (jix/varisat, pinned). The model is Lean 4 (4.33.0), under `lean/Verif`. Nothing in `/repo` is
executed; every definition of the model cites the file and the lines it was read from.

## Layout

* `Verif/Spec/*`   small specifications, written without any model helper: propositional semantics (assignments,
  satisfaction, unsatisfiability), the DIMACS language, RUP, histories of calls of the public interface, ...
* `Verif/Model/*`  the model of the code, function by function.
* `Verif/Proof/*`  lemmas and invariants.
* `Verif/Props/*`  the property theorems (the ones named in `MANIFEST.json`), each with an `example` showing that its
  hypotheses are met by a concrete non-trivial case. Examples and theorems proved by `decide` on literals are tests or
  counterexamples, and are labelled so.

A theorem whose name ends in `_partial` proves less than the statement in `properties.jsonl`; the file says what is
missing. If the full statement is false of the code, a theorem with a concrete run shows it (list of findings below).

## Modelling conventions

* `&mut self` becomes a returned value; `Result`/`Option` are data; a panic (index out of bounds, `unreachable!`, failed
  `assert!`) that matters for a property is an explicit error value (`Stop.panic`, `Field.panic`, `none`).
* `u32`/`u64`/`usize` arithmetic is `Nat` unless the property is about wrap-around (hashes, variable-length integers,
  header bit fields, DIMACS overflow test, Luby counter). `usize` is 64 bits. Debug-only overflow panics are not modelled.
* `Vec` is `List` or a function with a length; `HashMap`/`HashSet` are association lists; where the iteration order is
  observable it is a parameter (`Env.iter`, `Env.pick`).
* Loops are structural recursion or carry a measure; where fuel is used (`Stop.fuel`), it is computed from the state,
  except for `solve`, whose rounds are an argument: a theorem about "`solve` returns" holds for every fuel for which it
  returns, and `C54` shows that all fuel above some number gives the same result.
* Heuristic choices (activities as floats, schedule constants, free index choice, filter bits) are parameters: theorems
  hold for every value of them (`Env.Ok` only says that an index taken from a set of free indices is in it; the
  maximality part of C35 needs `ArithOk`, e.g. that a bump does not lower an activity; `f32` has it, `Activity.arith_ok`).

## Trusted base

* The Lean kernel. No own axioms, no `sorry`, no `native_decide` or `bv_decide`.
* Axioms of the theorems named in the manifest: `propext`, `Classical.choice`, `Quot.sound` and no others.
  * Only `propext`: C01.max_var_value, C16.delete_var_loses_unit, C46.no_clause_panics_later,
    C46.unit_clauses_half_applied, C46.sampling_mode_half_applied, C46.rejected_delete_forgets, C46.malformed_panics,
    Config.C43.merge_fields.
  * Only `propext` and `Quot.sound`: C01.word_level, C02.var_count_least, C02.new_var_iter_spec, C05.exactly_once,
    C18.hash_perm, C18.checker_hash_perm, C24.text_loses_deletions, C25.supported, C25.binary_literals, C26.model_panics,
    C34.set_len, C34.set_activity, C34.redundant_iff, C35.maximal_fails, C37.name_stable, C39.empty_clause,
    C39.not_at_once, Out.C47.hash, Config.C43.merge_repairs, Config.C43.merge_discards, Solver.C28.wrong_core,
    Solver.C42.dirty_flags, Solver.C42.wrong_glue, C53.stale_mark, C54.first_fits.
  * All three: every other theorem.
* The reading of the Rust source into the model (cited per definition).

### What is modelled

| Code | Model | Not modelled |
|------|-------|--------------|
| `varisat-formula/src/{lit,cnf}.rs` | `Model/Lit`, `Model/Cnf` | formatting, `proptest` strategies, the builder macros |
| `varisat-dimacs/src/lib.rs` | `Model/Dimacs` | text of messages, I/O errors (a failing reader is an argument of the CLI model). `from_utf8_lossy` and `split_whitespace` are modelled on bytes and proved equal to decoding and splitting characters (`Spec/Utf8`, `Proof/Utf8`) |
| `varisat-internal-proof/src/*.rs` | `Model/Vli`, `Model/ProofFormat`, `Model/Hash` | `Vec::reserve` for absurd lengths |
| `varisat-checker/src/*.rs` | `Model/Checker`, `Model/CheckerApi` | `u32` overflow of reference counts; several processors count as one |
| `varisat-lrat/src/lib.rs`, `varisat/src/proof/drat.rs` | `Model/Lrat`; the LRAT writer with its `BufWriter` and a failing target: `Model/LratBuffer` | failing DRAT writers (`ProofOut` has them) |
| `varisat/src/clause/header.rs` | `Model/Header` (32-bit words) | |
| `varisat/src/clause/alloc.rs` | `Model/Alloc` (word buffer) | unchecked accesses other than those of propagation (`Model/Solver/PropRaw`) |
| `varisat/src/clause/{db,gc,reduce,assess,activity}.rs`, `glue.rs`, `binary.rs`, `prop/watch.rs` | `Model/Solver/Db` | buffer size limit |
| `varisat/src/prop.rs`, `prop/*.rs` | `Model/Solver/{Trail,Prop}`; `Model/Solver/PropRaw` with the raw pointers of `long.rs` | aliasing rules of references |
| `varisat/src/analyze_conflict.rs` | `Model/Solver/Analyze` | |
| `varisat/src/variables.rs`, `variables/*.rs`, `context.rs`, `proof/map_step.rs` | `Model/Solver/Vars` | |
| `varisat/src/{unit_simplify,binary,assumptions,decision,model,cdcl,schedule,load,solver}.rs` | `Model/Solver/{Cdcl,Exec,Search}` | logging |
| `varisat/src/decision/vsids.rs` | `Model/Vsids` over any linear order; `Model/Activity` with `f32` (`Spec/Float32`) | |
| `varisat/src/clause/activity.rs` | `Model/Activity`; elsewhere the activities are arbitrary | activities of deleted clauses |
| `varisat/src/schedule/luby.rs` | `Model/Luby` | |
| `varisat/src/config.rs`, `varisat-internal-macros` | `Model/Config` (macro expanded by hand, f32 as bit patterns) | TOML parsing |
| `varisat/src/proof.rs`, error handling of `solver.rs` | `Model/ProofOut`, `Model/Joint`, `Model/Interleave`; with the `BufWriter` and targets that fail: `Model/ProofBuffer` | in `ProofOut` each step or flush is one I/O operation with any result |
| `varisat-cli/src/{main,check}.rs`, `check/transcript.rs` | `Model/Cli`, `Model/CliFile`, `Model/CliDisk` | `clap`, environment variables, panics of `println!` |

Not modelled anywhere: memory safety of `unsafe` blocks other than that of `propagate_long` (C68), allocation failure, the `partial_ref` borrow machinery, crates
outside the repository (`itoa`, `leb128`, `rustc-hash`, `smallvec`, `hashbrown`), whose documented behaviour is
re-modelled where it is needed, the order of log lines relative to other output.

## Per property

| Id | Modelled | Proof |
|----|----------|-------|
| C01 | `Var`, `Lit` over `Nat` codes and over 32-bit words | arithmetic |
| C02 | `CnfFormula` (buffer and ranges) and its mutators | invariant over histories; refinement to a list of clauses |
| C03 | `write_dimacs*`, byte-level parser | round trip by induction over clauses and digits |
| C04, C05 | `parse_chunk` as a byte fold with carried state, `take_formula` | fold over append; simulation between taking and non-taking runs |
| C06, C07 | digit branch, header check | against a value spec; invariant relating header and formula |
| C08 | the parser | refinement to a line and token grammar with UTF-8 header lines (`Spec/Utf8`); `C08.accepts` has no hypotheses: the parser takes away a lone minus sign at the end of the data and decides the grammar for the rest. Partial: because of that minus sign the claim itself is false (`C08.dangling_minus_accepted`); line numbers off by one |
| C09, C10 | `write_u64`, `read_u64`, fast path | arithmetic on powers of two |
| C11, C12 | `write_step`, `parse_step`, `check_proof` loop | round trip per step, lifted to streams; prefix argument |
| C13-C16 | checker state machine | invariant: database and units implied by (equivalent to) the added clauses; RUP soundness |
| C17 | `check_model_step` | same. Partial: no `DeleteVar`, formula not refuted |
| C18 | hashes, `copy_canonical` | permutation invariance; sorting lemmas |
| C19, C20 | reference counts, clause ids | refinement to multisets; monotonicity |
| C21, C22 | `rup.rs` | replay of the reported steps against an independent database; completeness of the loop |
| C23 | literal buffer, collection, rehash | refinement |
| C24, C25 | `WriteLrat`, `drat.rs` | emitted bytes through a reader spec. C24 partial: textual mode loses trailing deletions |
| C26, C27, C45 | the CDCL solver as a state machine | global invariant `Inv` over all histories of calls; refinement to an abstract solver (`Api.Abs`) |
| C28 | `analyze_assumption_conflict`, assumptions | same, with the scratch flags. Partial (false after a failed core of one literal) |
| C29, C30 | `analyze_conflict.rs` | loop invariants over the implication graph, for every reachable conflict |
| C31, C32 | propagation, trail, backtracking | watch invariant in all states a search reaches (`SearchFrom`) |
| C33, C40 | word buffer, clause db, collection, reduction | refinement to a map of clauses; exact counts |
| C34 | header words | bit-level extensionality |
| C35 | VSIDS heap | heap invariant over any linear order. Partial (maximality is false after `make_unavailable`) |
| C36 | Luby generator | induction over blocks |
| C37 | variable maps | invariant over histories |
| C38, C39 | `unit_simplify`, `simplify_binary`, `load_clause` | equivalence of clause sets. C39 partial ("at once" is false for long clauses) |
| C41 | hashes collected during the analysis | RUP along the hashes; simulation of the checker's view by the solver state (`Sim`) |
| C42 | glue, scratch flags | fold invariant. Partial (flags dirty after a failed core of one literal) |
| C43 | configuration updates | case analysis. Partial (merging and rejected updates) |
| C44 | error state machine | invariant over histories with any failing I/O. Partial (`close_proof` takes the error) |
| C46 | error exits of the checker | frame lemmas. Partial, with counterexamples |
| C47 | hash-bit bookkeeping | invariant over steps; partial, with counterexamples |
| C48-C50 | the command line tool | decision table; composition with parser, solver and checker. Partial (line breaks in messages) |
| C51 | solver, proof output and checker together (`Joint`) | the checker accepts every step: simulation between the solver and the checker over all histories. Partial (C28; DRAT output panics on assumptions and incremental clauses) |
| C52 | the same, with the bytes of the file | reordering of clauses before the steps; hashes cut to fewer bits; parser round trip; all steps fit the format (C67). Partial (hidden variables) |
| C53 | all panics of the solver API | the modelled asserts, indices and `expect`s hold in every reachable state; marks of variables tracked along the history. Partial (stale marks) |
| C54 | termination of `solve` | a measure that every conflict raises while there is no restart (removed units and trail as a binary number, zeros for decisions); the Luby sequence makes the intervals long enough, and in the end (after 2^64 blocks, where `u` wraps) zero. Counters of conflicts and restarts are `Nat` |
| C55 | when `model()` and `failed_core()` return something | induction over the history; what every call does to the answer, the stored model and the variables in use. Partial (`C26.model_panics`) |
| C56 | the command line tool ends, its exit status says why, and 10 and 20 decide satisfiability | C53 (no panic while loading), C54 (termination), C55 (a model is there), C43 (options), C05 and C08 (parser) |
| C57 | `--check` on a proof written for a DIMACS file | C52 for the file; the checker's transcript has `UNSAT` / a model for the steps it announces (`CheckerTold`), announces input clauses and models only for such steps (`CheckerSaid`); C58 for the steps in the file; C50 for the output. Partial: no tautological clauses, at most 2^32 clauses at a time; `t UNSAT` may be missing with an empty clause (`C57.silent`) |
| C58 | which steps a call adds to the proof | induction over the calls; every function of the search emits derivation steps only (`SolveLog`), other calls names and at most one clause, only `assume` assumptions (`Says`) |
| C59 | sessions and histories with a DRAT target; a DRAT checker (`Spec/Drat.lean`) on the bytes | a view of the checker (C51) is covered by the clauses of the DRAT checker: stored clauses with multiplicity, units as unit clauses; hints give the unit propagation (`Proof/Drat.lean`); C25 for the bytes, C54 and C53 for the session. Partial: hidden variables before the first `solve` (`C59.renamed`), histories on which DRAT output panics |
| C60 | the transcript steps of the checker; a reader of transcripts (`Spec/Transcript.lean`) | invariant over all operations: under the condition on names every user variable is its own number, so the transcript steps are the checked steps with hidden variables removed (`CheckerNaming`); the checked steps are right about the clauses and assumptions before them (`CheckerTruth`, on top of C13, C14 and C16). Partial: names other than the own number (`C60.two_names`), deleted variables (`C60.deleted`) |
| C61 | the lines printed for a transcript; runs and their lengths (`Spec/TranscriptText.lean`) | induction over the steps with the pending summary as state (`Proof/TranscriptText.lean`); composed with C60 and the parser. Partial: as C60 |
| C62 | the bytes of `--write-lrat` (`lratFile`); an LRAT checker with its own numbering (`Spec/LratCheck.lean`) | the clauses of the input get the ids of their positions as long as there is no conflict (`Proof/LratFile.lean`), afterwards the replay of C21 is a run of the LRAT checker; read back with C24. `C62.sound`: accepted files refute the formula. For proofs of the solver: with user variables only, `solve` adds no clauses and deletes no variables (`Proof/Solver/SolveUser.lean`, `WrittenInner.lean`). Partial: no contradicting unit clauses before the last input clause (false otherwise), proofs from elsewhere add no clauses and delete no variables |
| C63 | solver, in-process checker and LRAT writer of one run (`Model/Joint`) | the operations of the checker during a run of the solver (`liveOp`) are related to the replay of C62 (`Proof/LiveLrat`, `Proof/Solver/LiveRun`). Partial: one `solve` (`C63.twice`), no contradicting unit clauses before the last one (`C63.id_clash`) |
| C64 | `main` with `--proof`, `--proof-format` and `--self-check`, the file included (`Model/CliFile`) | every run is a run of C48 where writing may have failed (`answers`); without failures C54 and `close_total` give termination, and the theorems C57, C59 and C63 apply to the session made of the parsed clauses (`Proof/CliFile`); parsed variables are small (`Proof/DimacsRange`). Partial: as C57 and C62 |
| C65 | `main` with failing writes and processors (`Model/CliFile`, `penv.io`, `penv.chk`) | a run with failing processors is one with processors that accept everything, or ends with the error of a processor (`Proof/Lenient`, `Proof/LenientOut`); the session of C64 with an error as a second outcome; after an error the proof output is empty, so closing cannot panic; one file in any case, with DRAT steps only (`OneFile`, `Proof/CliFault`); without an error before the verdict the DRAT file has all steps, whatever closing does (`close_written`), and the argument of C59 applies; for LRAT that of C63. The processor has accepted all it was told if no error was returned (`Proof/CheckerHeard`, `Proof/HeardOut`), and if it is the LRAT writer C69 applies. Partial: native files lose their end marker (`C65.marker_lost`), LRAT files what is in the buffer (`C65.lrat_lost`) |
| C66 | all calls of the solver that name variables (`Abs`, `Exec`) | used variables have a name (`named`), names are kept until hiding (C37), `new_var` returns a variable without name. Partial: variables of ignored clauses (`C66.reused`) |
| C67 | the same log of steps, with the sizes of their lists (`Spec/ProofSize`) | user and solver names are used without gaps, so that there are at most as many variables in a proof as were created (`Proof/Solver/Sizes`, part of the invariant `Names`); every list of literals has no duplicates, hints are collected once per variable (`Proof/Solver/Short`, part of the simulation `Seen`); `Proof/Solver/Fits` |
| C68 | `propagate_long` on the words of the buffer and in place on the list of watches; pointers are indices, leaving an array is the error `ub` | simulation by `Model/Solver/Prop` round by round (`Proof/Solver/PropRaw`), with disjoint regions of clauses as part of the database invariant (`C33.layout`). `C68.checked` is about the second check alone: there a pointer beyond the buffer is an error only when used, as otherwise making the pointer fails before the check. Partial: safety for arbitrary contents of the database is false |
| C69 | `WriteLrat` over `BufWriter` over a target whose calls take some bytes or fail (`Model/LratBuffer`) | what the target has got followed by the buffer is the output of the writer of C24 (`Rel`), for every operation; failed operations leave a prefix (`Proof/LratBuffer`) |
| C70 | the heap and the clause activities with `f32` numbers given by their bit patterns; rounding to nearest, ties to even (`Spec/Float32`) | rounding is monotone, fixes the numbers and is to a nearest number (`Proof/Float32`); the bump value is at least `2 ^ 99` when an activity passes the limit, since a smaller one would be lost in the sum (`Proof/Activity`); invariant over all calls through the refinement of C35. Also gives C35 for real `f32` arithmetic |
| C71 | `ProofOut` with its `BufWriter` over targets whose calls take some bytes or fail, for any division of steps into calls of `write_all` (`Model/ProofBuffer`) | every computation is one of `ProofOut` with an environment that has the results of the writer (`Runs`, compositional, panics included), so C44 applies; what the target has followed by the buffer is the encoding of the steps written (invariant); a flush is the last thing before an answer and before closing (`Proof/ProofBuffer`). Partial: a replaced target loses bytes silently (`C71.replaced`) |
| C72 | `main` with `--proof` and the `BufWriter` of the file (`Model/CliDisk`) | every run is a run of `Model/CliFile` with an environment that has the results of the writer (`endedB_runs`), so C65 applies; when there is a verdict the buffer is empty (`endedB_verdict`), and dropping the solver writes no byte to a DRAT file (`close_flushed`). If no call fails, the environment is the one without failures and what is dropped reaches the file (`Full`), so C64 applies. The fuel does not depend on the target (`fuel`). False for the end marker of native files (`C72.marker_lost`); nothing else of them can be missing (`C72.native_partial`, from `Between`: the only target has what was flushed and at most the steps and the marker) |
| C73 | `solve` with its rounds and the stored error (`Model/Interleave`) | each round keeps the invariant of the search (`After.scheduleStep`), so a search stopped at any round leaves a state between two calls (`Inv.solveI`); after an error there is no proof output (`Settled`), so steps are ignored (`feed_error`) and running the search to its end changes neither files nor error (`St.rounds_of`, `After.rounds`) |
| C74 | pairs of histories of `Exec` and `Life`, pairs of runs of the command line tool | both answers are decided by the formula (C45, C73, C56); relations between formulas are proved in propositional logic. Partial: a failed core is confirmed under the condition of C28 (`C74.core_wrong`) |
| C75 | the loop of a user who excludes each model found (`C75.Loop`) | induction over the rounds: each removes at least one solution over the variables used (`C75.round`); the models and the solutions are in bijection (`C75.counts`) |
| C76 | pairs of histories as C74, one of them with guarded clauses (`C76.formula`) | an assignment of the other variables is extended to the switches (`C76.flip`), and the other way round (`C76.unflip`). Partial: the sentence about failed cores has the condition of C28 |
| C77 | the loop of a user who leaves out assumptions in turn (`C77.Loop`) | invariant of the loop: the assumptions left cannot all hold, and for each that was kept there is a solution with all others (`C77.found`); answers as C45, end of each call as C54, no panic as C53 |

## Findings

Each item is a theorem with a concrete run of the model, unless marked (reading), which is only an observation made
while modelling.

DIMACS and formats
* A dangling `-` at the end of the input is accepted (`C08.dangling_minus_accepted`, `C49.not_dimacs`).
* The line reported for a header error is one too high if the line feed is the offending byte
  (`C08.header_error_line_off_by_one`).
* Textual LRAT loses deletions at the end of a proof (`C24.text_loses_deletions`).

Checker
* `check_proof` succeeds for proofs that refute nothing (`C13.success_is_not_refutation`, `C50.verified_without_refutation`).
* `DeleteVar` drops a unit clause (`C16.delete_var_loses_unit`, `C17.model_after_delete_var`); conflicts may cite a deleted
  unit (`C21.conflict_cites_deleted_unit`).
* A model step is accepted for a contradictory formula (`C17.model_of_unsat_accepted`).
* A second `check_proof` reuses a clause id (`C20.second_check_proof_reuses_id`).
* A step with an unknown hash leaves temporary assignments, later calls panic (`C46.no_clause_panics_later`); `UnitClauses`
  and `ChangeSamplingMode` can be half applied; a rejected deletion forgets the previous clause; malformed steps panic
  (`C46.*`).
* `varisat --check` prints `t UNSAT` and `VERIFIED` for a satisfiable input if the proof adds clauses (`C50.added_in_proof`).
* `varisat --check` panics on an input with a tautological clause over unseen variables, whatever the proof (`C57.taut_panics`).
* After two contradicting unit clauses the checker gives no ids to further input clauses. The LRAT file then uses the id of an
  input clause for the empty clause (`C62.id_clash`, and `C63.id_clash` for an LRAT file written while solving).
* Two calls of `solve` after contradicting unit clauses write the empty clause twice with the same id to the LRAT file
  (`C63.twice`).
* (reading) hash bits of 0 or more than 64 panic with overflow checks.

Solver
* After a failed core of one literal a scratch flag stays set. Later failed cores can be wrong (`C28.wrong_core`), glue is
  undercounted (`C42.dirty_flags`, `C42.wrong_glue`), and self checking panics (`C51.rejects`).
* `make_unavailable` can break the heap order of the decision queue (`C35.maximal_fails`).
* `model()` panics if a variable was created after a satisfiable answer (`C26.model_panics`).
* A clause of two or more false literals is not reported as unsatisfiable at once (`C39.not_at_once`).
* The number of hash bits falls from 64 to 6 when the first `solve` starts (`C47.shrinks`); a proof file started later is
  out of step with its reader (`C47.second_file`); 2^32 clauses overflow (`C47.overflow`).
* The proof file of a solver whose variables are hidden before the first `solve` is rejected by a checker that is given the
  clauses first (`C52.hidden_rejected`).
* `close_proof` takes the error, the next `solve` panics (`C44.close_takes`).
* Merging configuration updates can repair or discard a rejected update (`C43.merge_repairs`, `C43.merge_discards`).
* Assumptions that are already implied keep their `assumed` flag, so a later `hide_var` panics (`C53.stale_mark`).
* With an empty clause in the input, `--check` verifies a proof without printing `t UNSAT` (`C57.silent`).
* With DRAT output every `assume` panics, also an empty one, and so does `add_clause` after `solve`
  (`C51.drat_assume`, `C51.drat_incremental`).
* Transcripts may give one name to two variables, and then list contradicting clauses and a model: the check for colliding
  names ignores variables that are reported by their own number (`C60.two_names`). Models may contradict clauses on deleted
  variables (`C60.deleted`).
* `--check` never prints the last summary of the transcript; for an input without results no `t` line appears at all
  (`C61.last_missing`).
* DRAT output uses global variables, which differ from those of the user once variables are hidden (`C59.renamed`).
* `add_clause` on an unsatisfiable solver does not create its variables; `new_var` may return one of them (`C66.reused`).
* `propagate_long` reads beyond the clause buffer if a stored clause has fewer than two literals, in spite of the comment that
  it is safe whatever other code does (`C68.unchecked`). What the checks achieve for any contents of the memory: a round stays
  within the arrays if the length read is at least two and does not exceed the buffer (`C68.round`); with a greater length the
  end pointer is computed before the check (`long.rs:112-115`). No reachable state has such a clause (`C68.exact`).
* A second `write_proof` replaces the target without flushing it: steps written to the first target are lost, and no call returns an
  error (`C71.replaced`).
* `model()` may return a model after `solve` returned an error (`C73.model_after_error`); it is a right one (`C73.model`).

Command line
* A file name with a line break can forge a verdict line (`C48.forged`, `C50.forged`).
* The end marker of a native proof is written when the solver is dropped, where errors are ignored: with status 20 the file may
  be incomplete (`C65.marker_lost`).
* The LRAT writer is not flushed before the verdict, and errors of its last writes are ignored: on a full disk the program
  reports a verdict with status 20 and leaves an empty file (`C65.lrat_lost`, `C69.lost`).

## Seeded mutations

`seeded/LOG.jsonl` records wrong versions of the model tried in a scratch copy: the definition, the edit, the claim it
breaks, the theorems that fail and the theorems that were tightened because of it.
