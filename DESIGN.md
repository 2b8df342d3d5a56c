# Formal model of mimic++ — design

Source under study: `/repo/include/mimic++` (DNKpp/mimicpp, pinned commit), read as text only.
Proof assistant: Lean 4.33.0. Everything lives in `/verif/lean/Verif`.

## 1. Trusted base

* Lean's kernel.
* The axioms the theorems depend on: at most `propext`, `Classical.choice`, `Quot.sound` (Lean's
  three standard ones). No axiom is added, there is no `sorry`, no `native_decide`, no `bv_decide`.
* The hand translation C++ → Lean. Every model definition cites the file and lines it models and
  states where it simplifies.
* The contract of the C++ standard library and language facts used by the translation. These are
  modelled, not verified: `std::vector`, `shared_ptr` reference counting, `std::ranges` algorithms,
  `noexcept` ⇒ `std::terminate`, order of destruction.

## 2. Conventions

* C++ `int` is modelled by `Int`; every place where the code could overflow is an explicit check in
  the model that yields a distinct *fault*, so absence of overflow is a theorem, not an assumption.
* `assert(...)` in the code, out-of-range access, null dereference, wrong `std::get` on a variant:
  distinct fault outcomes (`Stop.ub`). `std::terminate` (exception leaving a `noexcept` function):
  a distinct outcome (`Stop.terminate`). Nothing is totalised with a silent default.
* The client (test code) is an arbitrary list of operations. A client that uses dead handles is
  outside the contract; the model returns `Stop.client` for it, and theorems say what holds for all
  runs (`run ops = ok …`) and that valid operations never stop with `ub`.
* Specifications live in `Verif/Spec/*`; they mention neither cursor, entry states nor ratings.
  Property theorems live in `Verif/Props/*`, helper lemmas in `Verif/Proofs/*`, the model in
  `Verif/Model/*`.

## 3. Model layers

| layer | model | specification vocabulary | models |
|---|---|---|---|
| times | `Model/Times.lean` | `Spec/History.lean` | `TimesConfig`, `expect::times…` |
| sequence | `Model/Sequence.lean` | `Spec/History.lean` | `BasicSequence`, strategies, `has_better_rating`, `Config` |
| control | `Model/Control.lean` | `Spec/History.lean` | `ControlPolicy`, `make_control_state`, `make_sequence_entries` |
| expectation | `Model/Expectation.lean` | `Spec/Trace.lean` | `BasicExpectation::matches/is_satisfied`, `evaluate_match_report`, `make_match_report`, `pick_best_match`, `handle_call` |
| world | `Model/World.lean`, `Model/Reach.lean` | `Spec/Trace.lean` | heap of sequences, collections, expectations; client operations; reports |
| builder | `Model/Builder.lean` | `Spec/Build.lean` | `BasicExpectationBuilder` |
| overloads | `Model/Signature.lean` | `Spec/Overload.lean` | `TypeTraits.hpp`, `unique_list_t` |
| mocks | `Model/Mock.lean` | `Spec/Mock.lean` | `Mock`, `MockFrontend`, storages, Category/Constness policies, moves of mocks |
| calls | `Model/Calls.lean` | `Spec/Calls.lean` | side effects, finalizers, nested calls, `noexcept` |
| matchers | `Model/Matcher.lean` | `Spec/Matcher.lean` | `Matcher.hpp`, `String.hpp` and the std algorithms they use |
| watchers | `Model/Watcher.lean` | `Spec/Watcher.lean` | `LifetimeWatcher`, `RelocationWatcher` |
| watched objects | `Model/Watched.lean` | `Spec/Watched.lean` | `CombinedWatchers`, `BasicWatched`, `Watched` |
| reporters | `Model/Reporter.lean` | `Spec/Scoped.lean` | `DefaultReporter`, `BasicReporter`, `detail::report_*`, `noexcept` boundaries |
| ownership | `Model/Scoped.lean` | `Spec/Scoped.lean` | `ScopedExpectation`, ends of scopes, stack unwinding |
| printing | `Model/Text.lean`, `Model/Printer.lean` | `Spec/Printer.lean` | `mimicpp::print` and the printers of `Printer.hpp` |
| texts | `Model/Reports.lean` | `Spec/Reports.lean` | printers of `Reports.hpp`, `stringify_*`, `make_call_report`, `report()` |
| descriptions | `Model/Descriptions.lean` | `Spec/Descriptions.lean` | `describe()` in `matches`, `report`, `make_match_report`, `remove` |
| threads | `Model/Concurrent.lean` | `Spec/Concurrent.lean` | lock scope of `ExpectationCollection`, memory accesses, happens-before |
| threads with mocks of their own | `Model/Concurrent.lean` | `Spec/Owned.lean` | who uses which mock; the steps of one thread |
| programs without some expectations | the base model | `Spec/Unused.lean`, `Spec/Bystander.lean` | what a history becomes when expectations are left out of it |
| programs without one of their sequences | the base model | `Spec/Redundant.lean` | what a history becomes when a sequence is left out of it |
| numbers of calls | the base model | `Spec/Steady.lean` | which situations differ only in numbers that make no difference |
| complete rules for watched objects | `Model/Watcher.lean` | `Spec/Watchful.lean` | for every operation on watched objects, when it is allowed and what happens |
| complete rules for watched objects of the client's types | `Model/Watched.lean` | `Spec/Combined.lean` | the same for objects that consist of several watchers and a part of the client |
| complete rules for scoped expectations and reporters | `Model/Scoped.lean`, `Model/Reporter.lean` | `Spec/Scoping.lean` | for every operation, reporter and number of exceptions on their way: the end, the exception, termination, or undefined behaviour |
| complete rules for mocks with overloads | `Model/Mock.lean`, `Model/Signature.lean` | `Spec/Mocking.lean` | for every operation: whether it is allowed, what is observed, termination, or undefined behaviour; the events of a new mock are those of its storages |
| complete rules for builders | `Model/Builder.lean` | `Spec/Builders.lean` | for every operation: whether it is allowed, whether it is refused, and the operations without builders it stands for, whose observations are those of C105 |
| moves of builders | `Model/Builder.lean` | `Spec/BuilderMoves.lean` | the same test with the new object in place of the old one, and later builders numbered one further |
| tests with one sequence | the base model | `Spec/Language.lean` | regular expressions, matching with possessive quantifiers |
| tests that ask for fewer calls | the base model | `Spec/Relax.lean` | pairs of tests that differ in lower limits |
| one expectation instead of two | the base model | `Spec/Merge.lean` | pairs of tests, with the numbers of expectations translated |
| tests with other kinds of sequences | the base model | `Spec/Kinds.lean` | pairs of histories that differ in the kinds of sequences |
| other orders of ends | the base model | `Spec/Ends.lean` | pairs of tests that differ in the order of a block of ends |
| tests without a forbidding expectation | the base model | `Spec/Forbid.lean` | pairs of tests, with the numbers of expectations translated |
| `noexcept` specifications | `Model/Contracts.lean` | `Spec/Contracts.lean` | the factories of requirements, finalizers and side effects, `finalize_call`, `consume`, `PredicateMatcher::matches` with classes of the client that throw |
| tests with declarations at other places | the base model | `Spec/Moves.lean` | |
| sections of a test that share mocks | the base model | `Spec/Again.lean` | |
| the reporter and several threads: Reporter.hpp 534-640 | `Model/Shared.lean` | `Spec/Shared.lean` | the client does not synchronise its threads in the middle of a report or an installation; what reporters do on their own is not looked at |
| comparing calls and reports: Call.hpp 19-59, Utility.hpp 40-49, Reports.hpp 39-76, 198-264, 314-337, 401-450 | `Model/Compare.lean` | `Props/Compare.lean` (`Place`) | types are numbers; what is printed for an object is given by the memory |
| running out of memory: Expectation.hpp 27-46, 258-289, 300-352, 600-665, ExpectationBuilder.hpp 154-185, Sequence.hpp 90-110, 280-282, Reporter.hpp 539-620 | `Model/Memory.lean` | `Spec/Memory.lean` | one flag per point at which allocations are made; the client's side effects and finalizers are left out; the reporter object exists |
| the reporter in force: Reporter.hpp 534-655, static storage duration | `Model/Install.lean` | `Spec/Install.lean` | one thread; what is reported is not looked at |
| threads with sequences | `Model/Threads.lean` | `Spec/Threads.lean` | the steps of the base model's operations between which other threads can run, with the memory they access and the mutex they hold |
| macros | `Model/Macros.lean`, `Model/Preprocessor.lean` | `Spec/InterfaceMock.lean` | `InterfaceMock.hpp`, macro replacement |
| captures | `Model/Capture.lean` | `Spec/Capture.lean` | what matcher factories, `expect::arg`, `finally::returns/throws` copy, move or refer to |
| failing creations | `Model/Fragile.lean` | `Spec/Fragile.lean` | `BasicExpectationBuilder`, `finalize`, `BasicExpectation`'s constructor with policies whose constructors throw |
| overload resolution | `Model/Select.lean` | `Spec/Select.lean` | candidates of `mock(...)` and `mock.expect_call(...)`, calls in generated methods; the language's rule |
| whole tests | `Model/TestRun.lean` | `Spec/TestRun.lean`, `Spec/Scopes.lean` | the framework adapters, `BasicReporter`, scopes, exceptions, handlers and destructors of a test |
| printed arguments | `Model/PrintCall.lean` | `Spec/PrintCall.lean` | `print` for objects that throw or contain themselves, `make_call_report` in `handle_call` and `make_match_report` |
| matchers that call mocks | `Model/Nested.lean` | `Spec/Nested.lean` | the matching loop of `handle_call` with matchers that are programs, the mutex of the storage |
| threads and client code of all kinds: Expectation.hpp 27-46, 258-289, 301-352, Sequence.hpp 90-110 | `Model/Block.lean` | `Spec/Block.lean` | only the mutexes: operations run any client code in any order while they hold the mutex and after it |
| expectations and control policies of the user's own: Expectation.hpp 27-71, 108-199, 205-357, 387-398, 407-560 | `Model/Foreign.lean` | `Spec/Foreign.lean` | member functions that are `const` change nothing; one collection |
| lock order | `Model/LockOrder.lean` | `Spec/LockOrder.lean` | several threads taking the mutexes of mocks in nested matching loops |
| forwarding | `Model/Forward.lean` | `Spec/Forward.lean` | what `finally::returns_arg` moves, copies and refers to |
| case folding | `Model/CaseFold.lean` | `Spec/CaseFold.lean` | case-insensitive string matchers with any converter, UTF-8/16/32 |
| matchers and arguments | `Model/Touch.lean` | `Spec/Touch.lean` | matchers that change what they look at, single-pass ranges |
| custom matchers | `Model/Custom.lean` | `Spec/Custom.lean` | `matcher_traits`, the hooks, `each_element`/`any_element` of custom matchers |
| policies of the user's own | `Model/Own.lean` | `Spec/Own.lean` | expectation policies and finalizers with state, `consume`, `is_satisfied`, `finalize_call` |
| custom printers | `Model/Stringify.lean` | `Spec/Stringify.lean` | the choice among printers by type and way of passing, at every depth |
| independent parts | `Model/World.lean` | `Spec/Parts.lean` | several programs with their own numbers for objects, interleaved on one library |
| order of the sequences of an expectation | `Model/World.lean` | `Spec/Reorder.lean` | histories that differ in the order in which sequences are named |
| printers that call mocks | `Model/Display.lean` | `Spec/Display.lean` | `handle_call`, `make_match_report`, `make_call_report` with printers that call mocks |
| all rules together | `Model/World.lean` | `Spec/Whole.lean` | all operations of clients |
| reporters that call mocks | `Model/Notify.lean` | `Spec/Notify.lean` | `handle_call`, `make_match_report`, `consume`, `remove`, `~BasicSequence` with reporters, printers, side effects and finalizers that call mocks |
| addresses | `Model/Address.lean` | `Spec/Address.lean` | `tag`, `Config`, `has_better_rating`, `push`, `remove` with addresses that may be used again |
| shorthands | `Model/Shorthand.lean` | `Spec/Shorthand.lean` | `make_arg_matcher`, `requirement_for`, class template argument deduction in `matches::eq` |

Macros: where the standard
leaves open whether a macro name may be replaced again (arguments that reach beyond a replacement), GCC's and Clang's way is
modelled; these macros depend on it. White space, `#` and lexing are not modelled.

## 4. Plan per property

* **C01** Times: `TimesConfig` constructor as function to `Except`; theorem: accepted iff spec, value as given.
* **C02** Upper limit: world invariant `0 ≤ count ≤ max ≤ INT_MAX`, and count = number of full-match reports naming the expectation, by induction over histories.
* **C03** Unfulfilled iff count below minimum at scope end; trace theorem over all histories.
* **C04** Applicability refinement: representation invariant linking cursor/entry states to counts of the attached expectations; theorem: `state()` is applicable iff history rule.
* **C05** Sequence order: trace theorem derived from C04 and monotonicity of counts.
* **C06–C09** Selection: ratings of candidates in reachable states reduce to membership/age; fold theorem plus corollaries; C09 has an explicit reachable counterexample (negation proved) and a `_partial` positive theorem.
* **C10–C13** decision logic of `handle_call`, stated against the filtered list of live expectations; frame theorems; throwing matchers erased; liveness = membership in the collection.
* **C14–C16** sequence end: world model with reference counts; theorems over all histories; C15 witness.
* **C17, C18** progress theorem: valid client operations never give `ub`; `terminate` only at capacity.
* **C19, C20** builder model: list-valued configuration, typestate flags; sort+unique duplicate detection proved equivalent to `Nodup`.
* **C21–C24** signature model as data; overloadability function translated case by case (12 specialisations each) and proved equal to a three-line spec; isolation by case analysis lifted to all parameter lists.
* **C25–C28** call execution: interpreter with explicit stack depth; order of effects; simulation of nested runs by flat histories.
* **C29–C32** matchers over arbitrary types/relations; std algorithms written out (mismatch, search, is_permutation, is_sorted) and proved equal to prefix/suffix/infix/permutation/sorted. `toupper` on a negative `char` is a fault ⇒ C31 `_partial` plus negation.
* **C33** fold over policy results.
* **C34–C37** object-handle state machines, histories by induction; null dereference is a fault. Which expectations throw (`finally::throws`) is a parameter of the histories.
* **C38, C39** reporter decision table, composition with destruction.
* **C40** schedules: lists of steps (one per critical section or access to shared memory) with their reads, writes and mutexes, so that happens-before and data races are functions of the schedule; invariant relating the library's state to the schedule; negative witness schedules that are free of data races; positive theorems for calls that do not overlap, by a simulation in the single-threaded model.
* **C41, C43, C44** text functions over strings.
* **C42** mocks hold shared references to storages; histories.
* **C45** a macro preprocessor over tokens (arguments, prescan, `##`, `__VA_OPT__`, rescanning with disabled names) and all
  macros of `InterfaceMock.hpp` as data; rules for expansions (sequence, call, chained call), the loop `FOR_EACH_EXT` for any
  element macro, and the number of rescans (86) by composition. Texts of types are arbitrary token lists without macro names
  and with matching parentheses.

* **C46** descriptions as format strings: a small model of `std::vformat` with brace handling; a world in which `describe()`
  may throw, refining the world without descriptions; negation and a `_partial` theorem.
* **C51, C52** the texts of all reports of a call are computed along with it and compared with a description made from the
  history alone; printing of `char*` that do not point to a terminated text is undefined behaviour.
* **C49, C50** watched objects as lists of watchers; every history refines one of single watchers; construction and
  destruction order and stack unwinding written out; each operation terminates the program exactly when the reporter throws
  for a watcher it destroys; every other operation on existing objects is carried out, unless a watcher has nothing left (`C49_progress`);
  C50 is false, what exactly is lost is a theorem.

* **C47, C48** programs over objects, matchers and their uses; a reference semantics in which matchers hold values; simulation
  as long as nothing that is referred to is touched; follow/dangle theorems and counterexamples otherwise.
* **C53** programs over objects, finalizers and callers that assign through, or move from, what they get.
* **C54** types as data, overloads of `make_arg_matcher` by priority, usual arithmetic conversions, texts of C strings; the
  meaning of arguments as an inductive relation.

* **C55** policies and finalizers carry the number of constructions that succeed; the chain of `operator &&` and `finalize` are
  computed with them; every history with failed creations is simulated by one in which the expectation is created and destroyed
  at once, so the theorems about histories apply.

* **C56, C57** overload resolution with arbitrary implicit conversions as a function; `expect_call` is resolved by the object
  alone; agreement with calls under conditions, counterexamples otherwise; generated methods name the mock, so it is an lvalue.

* **C58** tests as structured programs over the scoped layer; the state carries what the framework has written down. A generic
  induction over programs gives the history; failures are counted against positions of the history at which something goes
  wrong. Passing implies a clean history for programs without handlers, and with the adapters for programs that throw nothing
  themselves; counterexamples otherwise.

* **C59** objects are an arbitrary type with what the compiler knows about each; printing counts the depth of recursion, so that
  "never ends" means "for no depth". A text exists exactly if the relation of parts is well-founded below the object and nothing
  throws; calls are related to `World.step`.
* **C60** matchers are trees of calls and answers; nested calls are carried out recursively with the list of held mutexes, and
  the bound on the depth is proved irrelevant; for layered programs the loop is shown to see the state at its end, so that the
  history is a flat one with the answers as data; several threads as a machine over stacks of loops, progress by induction on
  layers, termination by accessibility; counterexamples for all other programs.
* **C61** the texts of C51 are lifted from the flat history to the history with mocks: the invariant that relates the two also says
  what each expectation was asked for and through which overload; the two lines about the overload are computed by the model's
  policies and stated by an independent specification over signatures.
* **C62** objects of the caller, parameters as names of objects (new ones for values and temporaries), side effects and the cast to
  the return type as functions on the list of objects; induction over parameters and effects, for arguments that mention an object
  nobody else mentions (otherwise the order of evaluation is unspecified).
* **C63** encodings of single code points written out with arithmetic; each begins with a unit that occurs nowhere else in a code, and
  no code begins another, so prefixes, suffixes and parts of code units are those of code points (induction over texts). Converters are
  arbitrary functions; those of the experimental configuration decode, fold by an arbitrary function on code points, and encode.
* **C64** matchers as functions from arguments to arguments and an answer; the matching loop hands the arguments on from matcher to
  matcher. As in C60 the answers are recorded in the call of the base model, whose policies only look them up; an invariant shows that
  every history is one of the base model. Single-pass ranges are the instance where the arguments are the elements not yet passed.
* **C65** a matcher class is a record of the functions its traits and its members offer, per constness of the target; what does not
  compile is an outcome of its own. `each_element` of a class is again a class, so nesting is covered.
* **C66** the test programs of C58. By induction on programs, the operations of a test are those that it names and the ends of its
  blocks, and the block that ends is the innermost one; as long as nothing is moved, younger objects own younger expectations, so that C08 applies.
* **C67** policies and finalizers are records of functions on a state of their own. As in C60 what policies say about a call is recorded in the
  call of the base model, so every history is one of the base model; an invariant ties the states of the policies to the calls their
  expectation was reported to take. `is_satisfied` of policies is added where an expectation ends and where it is asked.
* **C68** two runs of the base model side by side: a relation between worlds that forgets the requirements, kept by every operation if the
  requirements say the same about each call. It also shows that the special kinds of requirements of C60, C64 and C67 bring nothing new
  where they behave: such histories are histories of the base model (`C60_quiet`, `C64_documented_partial`, `C67_library`).
* **C69** objects as trees with a type at every node; the choice of the printer is a function of the registered custom printers, the type
  and the way of passing. Proved against a relation `Shows` that knows nothing about ways of passing, by recursion over the tree. Where
  the way of passing does matter, there are counterexamples.
* **C70** several programs, each with its own numbering of objects, are interleaved on one world; a simulation relates the world of each part
  alone with its share of the common world (renaming of numbers that is one-to-one, nothing changes outside of the share).
* **C71** a simulation between worlds whose expectations hold the same sequence entries in different orders; each loop over the entries of
  one expectation (attaching, collecting priorities, consuming, releasing) commutes because the sequences are distinct (C19), and
  `has_better_rating` is shown to be a condition without order.
* **C72** on the model of C40: every memory access that concerns an expectation is shown to be made by the thread that owns its mock, so
  that two threads never conflict; the functions of the schedule in which C40 states the outcome of a step are shown to agree for the
  schedule and for the steps of the owner alone.
* **C73** the operations of the base model are cut into the steps that other threads can see. For threads that share nothing, the simulation
  of C70 is extended by the point at which each thread is and by the memory each step accesses; for threads that share a lock, the
  interleaving is shown to be a run of one thread, and a run of one thread to be one of the base model. That the memory accesses are
  complete is proved, too: a step changes only what it writes and depends only on what it reads or writes.
* **C74** the world without one expectation is a function of the world with it; every step commutes with it. An expectation without
  sequences has no ratings, so that it never displaces another candidate and is never displaced. The violation for expectations with
  sequences is a concrete pair of histories. What holds for those (`Proofs/Bystander.lean`) is proved on the rules of C105: the history without the
  expectation keeps all rules if the whole one does and the choices stay the same, and only then.
* **C75** an automaton (`next`) that keeps the position in the list of expectations and the number of calls of the current one
  simulates the reference semantics; its words are those of the regular expression if no call fits two expectations, and those of
  the regular expression with possessive quantifiers for lazy sequences. `C75_runs` shows that the library runs all these tests.
* **C76** `Proofs/SpecRun.lean` shows that a program of the base model runs exactly if it runs in the reference semantics and its counters
  fit (`program_iff_spec`). The two tests are then compared there, by a simulation: their states differ only in lower limits of
  expectations without sequences. The part about lazy sequences follows from C75 and the fact that possessive matching is monotone.
* **C77** a simulation between states of the reference semantics (as for C76): the state of the first test has two adjacent
  expectations where that of the second has one with the sum of the counts. In sequences the second of the two is only used after the
  first is complete, without sequences both are interchangeable, so one of the two is applicable exactly when the single one is. The
  choice between candidates depends only on their sequences, so the two can be put in place of the one.
* **C78** induction over the history: the kinds of the sequences are only looked at when there are two candidates for a call. The
  step of the reference semantics is then the same for other kinds, and the library does what the reference semantics does.
* **C79** two neighbouring ends commute: an end does not change counts, so what is reported about an expectation or a sequence does not
  depend on the order; a sequence that both own ends with the second of the two, once. Every permutation is made of such swaps.
* **C80** a simulation between states of the reference semantics, with and without the expectation. It is never applicable, and neither
  blocks its predecessors in sequences (it resolves nothing) nor its successors (it requires nothing). For the reports about sequences,
  C14 is restated for whole histories (`C14_reported`).
* **C81** for each function, the operations of the client's class it carries out, and the `noexcept` specifications around them; exact
  conditions for each outcome, by cases.
* **C82** earlier declarations: the state with one more expectation that has resolved nothing and is the youngest; every operation that does
  not concern it commutes with its declaration. Exchanged declarations: a simulation between states in which two neighbours are
  exchanged; they are never compared, because they share no sequence and never accept the same call. `C82_overlap` and `C82_sequence`
  show that both conditions are needed.
* **C83** a state with the reporters made so far, the function-local static variable and the objects to be destroyed at exit. `C83_log` by an
  invariant over everything that happens, including the end of the program and programs that stop early; `C83_report`,
  `C83_failed` and `C83_defined` by a simulation with the specification (`current`); `C83_exit` and `C83_exit_unused` tell exactly when the
  end of a program is undefined or terminates it. The last sentence of the property is false (`C83_counterexample`); under the
  conditions of `C83_exit_partial` it is true.
* **C84** the simulation of C70 between a part within a larger test and the part alone, started in any reachable state with storages that are
  empty; the invariant that everything older is attached to older sequences only.
* **C85** an invariant over schedules: where each thread is, which step began its report or installation, which reporters are owned by
  whom (pointer, threads, or destroyed; pairwise distinct), and from which step on a replaced reporter is not in force any more.
* **C86** a relation between the reference states of the two runs: expectations of the part are renamed, older ones are not; those of the
  exchanged sequences are dead and fulfilled, so they neither hold back nor are held back by anything. Kept by every operation; the library
  follows by the refinement theorem (`run_iff_spec`). The second half follows from the rule of turns, since dead expectations keep their counts.
* **C87** the reference state with fewer sequences: what is applicable stays applicable, and a single candidate is chosen either way; induction
  over the history, the library follows by refinement. A test that passes only because a sequence chooses is the witness for the last sentence.
* **C88** the reference state after some calls is a function of how they were distributed; a distribution can be followed step by step iff
  counts and orders are right (each way by induction over the calls), and where no call fits two expectations there is only one distribution.
* **C89** the `operator ==`s are modelled member by member, with source locations as pointers into a memory of names; each is shown to decide
  equality of contents, from which the laws follow.
* **C90** every point at which an operation allocates has a flag that says whether memory runs out there; the functions are written down again
  with these points. A history in which memory runs out is shown to be one of the base model, in which the calls carry the set of the
  expectations that cannot be asked and every expectation has a further policy that throws then. All theorems about histories apply
  to it. Which points terminate the program follows from which functions are `noexcept`.
* **C91** corresponding programs are related operation by operation (`Same`), calls by a relation between pairs of mock and argument
  for which the expectations give the same answers. A relation between states of the reference semantics is kept by each step, whether
  or not the mocks are the same; the rest are instances of it.
* **C92** one step of the reference semantics with and without the expectation; it is shown that the end of the expectation and the next
  operation may change places, with the same state afterwards, and induction over the operations in between. Operations that end something
  are covered by the lemmas of C79.
* **C93** the machine of C73 with the mutexes of the client added: each step of a thread belongs to a group whose mutex it holds. It is
  shown to do, step by step, what the machine of C73 does if each group is regarded as one thread; then C73 applies. That an unlock and a
  lock lie between two accesses by different threads follows from who holds the mutex.
* **C94** the oldest expectation that lacks calls is in turn in all its sequences (C05: nothing attached later was used; older ones that have
  ended had enough), so a call it accepts is resolved, by it or by another one. The number of calls all expectations together can still take
  decreases; induction on it. The lower bound counts the resolved calls of each step.
* **C95** the fields of `Situation.Same` are stated about histories alone; they determine the abstract state (`Same.state`), which determines
  each further step (C10). Calls without a resolution leave that state unchanged.
* **C96** simulation between the abstract states of both programs: expectations correspond one to one, with the same counts as long as no call
  of the second program fits two expectations, and without this condition still with the same life times, so that the second program is possible
  in any case. Ended expectations had enough calls, hence a sequence that ends earlier because it has fewer owners reports nothing.
* **C97** generalises C77 to any number of parts, and adds the converse. Simulation between the abstract states of both programs for two parts:
  the state of the second one has two neighbouring entries for the expectation, the first of which took `c` calls and the second one the others,
  `c` being existentially quantified because the younger one takes its calls first unless sequences order them; in sequences the second one has no
  calls before the first one has all. Then induction on the list of parts.
* **C98** printers are trees of calls; nested calls are carried out recursively with the list of held mutexes and a bound on the depth, which is
  proved to be without effect (`C98_bound`). As in C60: nested calls of lower layers leave the expectations and sequences of the upper layer
  alone, so that the loop and the choice come to the same result as if they were made right before `consume`.
* **C99** one direction is C68 and C71, and, for declarations that accept no call, a simulation of the reference semantics in which only the
  limits of one expectation differ (`Proofs/TellQuiet`). For the other direction tests are computed that tell the declarations apart
  (`Proofs/Tell`): one call for the mock and the requirements, as many calls as allowed and one more for the limits, and a second expectation
  in a sequence whose end reports how many are attached.
* **C100** an exchange argument by induction on the calls (`Proofs/Assign`): the library gives the first call to the youngest applicable
  expectation; if the given distribution gives it to an older one, then either the younger one has a use left, or a later call given to the
  younger one is exchanged with it, which the older, more general one accepts. The reverse direction reads the distribution off the run.
* **C101** with C75 a statement about the automaton. That the conditions suffice: every step keeps a word if there is one
  (`Proofs/Choice.step_ok`). That they are needed: a shortest word (lazy) or a longest one (greedy) leaves no part a choice, and the part in
  question nevertheless takes a call too much or leaves too early.
* **C102** a simulation on the specification's states: the two expectations stand next to each other in exchanged order with exchanged
  numbers (`Proofs/Declare.Swapped`). As no call fits both, at most one of them is ever a candidate, and as they share no sequence, each
  sequence sees the same list. Any rearrangement is a chain of such exchanges (`rearrange`, by induction over the permutation).
* **C103** `Model/Address` repeats the functions that compare or keep addresses, with an arbitrary assignment of addresses to objects. The
  reports are those of `Model/World` with other tags (`scan_eq`); ratings are only of sequences that exist (`scan_good`), for which tags
  are different, so the comparisons have the same results. Storages only hold expectations that exist (`coll_alive`).
* **C104** reactions of the reporter, side effects and finalizers are trees of calls, as the printers of C98; all of them are part of the model at once. `Proofs/NotifyPatch` describes what
  the calls of lower layers may change (`Patch`) and shows that the matching loop, `consume` and the end of expectations and sequences
  are blind for it; so these calls can be moved before the operation that they interrupt. `Proofs/NotifyEnd` does this for `~Model` and
  `~BasicSequence`, `Proofs/NotifyRuns` for histories.
* **C105** `Spec/Whole.lean` puts the rules of C01, C03, C08, C10, C14, C16 and C19 together to one relation `Prescribed tr op ev` between
  a history, an operation and its observations. That the library follows it is read off the reference semantics; that it determines
  the observations is proved for all traces, also impossible ones; both together with C17 give the converse (`C105_histories`).
* **C106** a thread is a stack of operations, each with the mutex it holds, the client code it still runs under it and the code it runs after it; which
  code that is is a relation, so that nothing is assumed about it. Progress by induction on the layer of the mutex a thread waits for (everything
  it holds is of a higher layer), the end of every schedule by induction on the layers and the code, mutual exclusion by an invariant.
* **C107** nothing is assumed about the expectations but that asking and describing them changes nothing; the state they share is a type parameter, and
  the rest of the program may apply any function to it between the operations. One induction over the list of members shows what a call comes to; the
  library's own expectations are shown to be an instance.
* **C108** on the rules of C105: the history without the sequence is lawful if the choices are the same (`Proofs/Redundant.lean`), and conversely by
  uniqueness of the choice. Whose turn it is is a matter of pairs of expectations, so it follows from the other sequences if these cover all pairs.
  The sufficient conditions compare the numbers of lazy and greedy sequences that an expectation belongs to.
* **C109** the rules of C105 mention the numbers of calls only by the three comparisons, so a next step carries over; for continuations, by induction, with
  the condition that the upper limit is not reached. Repeated calls by induction on their number.
* **C110** one rule per way an operation can go; forward by cases on the steps of the model with the invariants of C34-C36 (who carries what) and C105 for the
  reports; backward by carrying out the step. A new invariant: every mock belongs to the client or to a watcher.
* **C111** each of the four loops of the model (construction, unwinding, assignment, destruction) is characterised by "the steps follow the rules of C110 and are
  these", by induction; then operation by operation, with the invariants of C49. What has no rule is what terminates, by the progress theorem of C49.
* **C112** what the delivery of the reports of one operation comes to is said by looking at the observations as a set (which reports there are, whether the reporter
  throws); this is proved equal to the delivery one after the other, using the shape of the observations that C105 prescribes. Then operation by operation, with the
  invariants of C37, every operation has one of four fates; the rules for them exclude each other, so that all of them are equivalences.
* **C113** the invariant of C22 and C42 relates the history with mocks to one of the library itself; both agree about everything but mocks and matchers, so that the rules
  of C105 for sequences and the ends of expectations carry over. For calls, the expectations that are looked at are shown to be those of overloads with the same return
  type and parameters, by C23. The numbers of storages are counted by C23 as well. Every operation then has one of four fates, which exclude each other.
* **C114** a relation between the history with builders, the history without builders it stands for, and the state: the builder objects are determined by what was said
  about them, and the client's references to sequences by the objects and builders that exist. For each operation one of four cases applies (forbidden, refused,
  terminated, done), and the relation is kept. What an operation stands for is unique, so that the rules of C105 determine the observations.
* **C115** a relation between the states of the test without and with the move: the same world and the same builders under other numbers, and one builder more that
  holds nothing. Every step keeps it and has the same result, also if it fails.

The modules under `Verif/Conform` carry out the repository's own tests (`/repo/test/unit-tests`, `/repo/examples`) on the model. They
are tests of the model, not claims: they show that the model computes what the authors of the library expect, on their examples.

## 5. What is not modelled

Compile-time concept checks (other than overload sets), the test frameworks themselves (Boost/Catch/doctest/gtest; what is
assumed of them is stated in `Model/TestRun.lean`), `std::format` machinery, the tables and the treatment of ill-formed strings of `uni-algo`, source locations (carried as opaque
values).

## 6. Disagreements found between code and property

* **C09** `LazySequence`: with overlapping sequences a call can be given to an expectation although another candidate would
  make less progress (`C09_lazy_skips_ahead`); holds for nested membership (`C09_lazy_least_progress_partial`),
  and happens only if the former belongs to a sequence the latter does not belong to (`C09_least_partial`).
* **C15** the number in an unfulfilled-sequence report may be too small, never too large (`C15_undercounts`).
* **C22** overloads that share a storage also share diagnostics (examples beside `C22_isolated`).
* **C27** a side effect that destroys its own expectation leads to undefined behaviour (`C27_self_destruction`), and nothing
  else does (`C27_ub_cause`).
* **C31** case-insensitive matching passes a negative `char` to `std::toupper` (`C31_undefined`).
* **C35, C36** moving from, or expecting on, an already moved-from watcher is undefined behaviour (`C35_undefined`).
* **C40** matching and counting are separate steps, and counting holds no lock: limits can be exceeded without bound
  (`C40_overshoot`, `C40_overshoot_asserts`), expectations are used after their destruction (`C40_withdrawn`), and counting
  races with later calls of other threads (`C40_later_call_races`). Limits hold if the calls of an expectation do not overlap
  (`C40_limit_partial`); a mutex of the client that guards each mock is enough (`C40_guarded`, `C40_sequential`).
* **C46** a description with single braces is used as a format string and throws. `make_match_report` is `noexcept` and its
  handler describes again, so every call on the mock terminates the program (`C46_call`, `C46_braces`); an unfulfilled
  expectation with such a description is never reported (`C46_lost`).
* **C50** an unexpected relocation of an object whose lifetime watcher comes first uses up the destruction watch of the living
  object (`C50_lifetime_first`); a throwing constructor of the client's class terminates the program as soon as there is a
  lifetime watcher (`C50_base_throws`).
* **C52** every call prints all its arguments, so that a null or not terminated `char*` argument is undefined behaviour even
  if the call is resolved (`C52_char_pointer`).
* **C47** `each_element` and `any_element` move from a named matcher (`C47_emptied`, `C47_lost`) and reject a `const` one
  (`C47_const`).
* **C48** range matchers keep a reference to a named range, string matchers a pointer to the characters of an array: they
  follow later changes (`C48_follows`) and dangle (`C48_dangles`).
* **C54** `std::tuple{std::forward<T>(value)}` takes a `std::pair` or `std::tuple` apart, so `expect_call` and `matches::eq` do
  not work with them (`C54_taken_apart`); `expect_call(-1)` for an `unsigned` parameter accepts its largest value
  (`C54_sign`).
* **C55** a throwing move of a policy terminates the program while an expectation is composed (`C55_outcome`); when the
  expectation itself is constructed the exception comes out, but the sequences keep an entry that blocks them for good
  (`C55_blocks`, `C55_sequence_error`).
* **C56** `expect_call` may be ambiguous where a call is not (`C56_ambiguous`), and may mean another overload than the call
  (`C56_counterexample`); an overload whose last parameter is a source location cannot be called if there is one without it
  (`C56_location`).
* **C57** a generated method with `&&` calls another overload or does not compile (`C57_rvalue`, `C57_counterexample`); an
  expectation for it is never matched by it (`C57_unmet`).
* **C58** expectations that end while an exception is on its way are not checked, so a test that catches the exception passes
  although the expectation was never met, with every reporter (`C58_hidden`); with the default reporter a call that nothing
  expects is not noticed if the code under test swallows the exception (`C58_default_swallows`), with the adapters it is;
  with GoogleTest nothing tells that a matcher threw (`C58_gtest_silent`).
* **C59** a throwing printer of an argument decides how a call ends: nothing is counted or reported (`C59_throws`,
  `C59_counterexample`), or the program ends (`C59_terminates`); calls with a non-empty `std::filesystem::path` never return
  (`C59_path`, `C59_path_counterexample`); views that are tuples of iterators are printed without their elements
  (`C59_subrange`).
* **C60** a matcher that calls its own mock locks a mutex twice (`C60_relock`, `C60_relock_ub`, `C60_relock_through`); if a
  sequence connects mocks, a matcher that calls the other one makes an assertion fail (`C60_stale_assert`) or a call
  inapplicable that is not (`C60_stale_inapplicable`); matchers that call each other's mocks deadlock (`C60_deadlock`).
* **C62** `finally::returns_arg` compiles for mocks that return a reference although the parameter is passed by value or is bound to a
  temporary: the caller gets a dangling reference (`C62_dangles`). `T&&(T&)` mocks hand out an lvalue of the caller as rvalue
  (`C62_received`).
* **C63** case-insensitive `starts_with`, `ends_with` and `contains` may match half a code point whose folding is longer than one
  (`C63_half`); ill-formed patterns may be found case-sensitively only (`C63_cut`).
* **C64** matchers get non-const arguments: one that changes them changes the caller's object even if the call is not resolved
  (`C64_changed`), and older expectations judge the changed arguments (`C64_depends`). The documentation forbids this to matchers, but
  `range::eq` uses up single-pass ranges (`C64_single_pass`).
* **C65** `range::each_element` and `range::any_element` ask the member `matches` instead of the hook: matchers with traits only, such as
  those of Catch2, do not compile there (`C65_elements_traits`, `C65_catch2`); with both, answers may differ (`C65_elements_differ`).
* **C66** the documented guarantee that expectations from inner scopes are preferred (Expectation.hpp 92) does not hold with lazy sequences
  (`C66_lazy`), not even for inner expectations without sequences (`C66_bystander`), and not for expectations that were assigned to an outer
  object (`C66_assigned`) or moved into an inner scope (`C66_moved`).
* **C69** a custom printer that takes `T&` is silently not used for const objects, which are all values of optionals and tuples
  (`C69_reference_printer`); views that cannot be iterated when const are printed as `{?}` there (`C69_filtered_view`); the
  elements of a non-const `std::vector<bool>` are proxies, for which a printer for `bool` is not used (`C69_vector_bool`).
* **C74** with lazy sequences, whether an expectation that is not used is there can decide which other expectation resolves a call
  (`C74_sequences`, with a single sequence `C74_single`), because the comparison of ratings is not transitive if expectations belong to different sets of sequences.
* **C75** (remark) a sequence does not try all possibilities: `C75_counterexample` shows, for both kinds of sequences, calls that are
  a word of the regular expression but fail the test.
* **C76** (remark) tests can fail because they ask for less: in a greedy sequence (`C76_greedy`), and if a call fits an expectation in
  a lazy sequence and one without sequences (`C76_competing`).
* **C77** (remark) ranges of counts do not add up (`C77_ranges`): of two expectations with ranges, the one preferred takes all it can, and
  the other one is left unfulfilled.
* **C81** the functions that make policies are `noexcept` if the first construction is, but move afterwards: a class with a `noexcept`
  copy constructor and a throwing move constructor terminates the program (`C81_created_counterexample`). `finally::returns_result_of` is
  `noexcept` if the function is when called the way it was passed, but calls a copy that is a non-const lvalue
  (`C81_result_of_counterexample`).
* **C83** objects with static storage duration that were initialised before the reporter was first used are destroyed after it: if they
  report then, as an unfulfilled expectation does, the behaviour is undefined (`C83_counterexample`, `C83_exit`). Without any report or
  installation before, one such object is fine, two are not (`C83_exit_unused`).
* **C90** (remark) `std::bad_alloc` in the middle of asking an expectation is swallowed and reported (to the default reporter: printed), and the call
  may then be answered by another expectation (`C90_other`). A failed creation leaves its entries in the sequences (`C90_blocked`), as
  in C55.
* **C98** printing the arguments of a call happens between the choice of the expectation and its use: if the printer calls the same mock
  (`C98_exceeded`) or one that a sequence connects with it (`C98_stale`), the chosen expectation may no longer be applicable, and an
  assertion fails. After an exception of a matcher the arguments are printed under the mock's mutex, which such a printer locks again
  (`C98_relock`, `C98_relock_ub`). Calls made by printers count (`C98_observed`).
* **C104** the same for reporters that call mocks: the report about a resolved call is emitted between the choice of the expectation and its
  use (`C104_exceeded`, `C104_stale`), and the reports about exceptions and about unfulfilled expectations while the mutex of the mock is held
  (`C104_relock`, `C104_relock_end`), so that e.g. a reporter that calls the mock whose expectation was unfulfilled deadlocks. A reporter
  that logs the calls of its own logger never ends (`C104_endless`).
* **C106** an unfulfilled expectation is reported while the mutex of its mock is held. Two threads whose reporters call each other's mocks wait for each
  other for ever (`C106_deadlock`); with one thread, the mutex is locked twice (`C106_relock`). Side effects that call their own mock need not
  come to an end (`C106_endless`).
* **C107** the concept `control_policy` allows `state()` to throw. An exception of `matches` is to be reported, but describing the expectation for
  that report calls `state()` again, within a function that is `noexcept`: every call of the mock terminates the program (`C107_state_throws`).
* **C108** a sequence that demands no order of its own may change the choice among expectations: `has_better_rating` counts the sequences that are
  in favour of each candidate. Two lazy sequences with the same expectations outvote a greedy one (`C108_votes`), and a lazy sequence for a part
  of the expectations of another one keeps a younger expectation from giving way (`C108_part`).
* **C45** (remark) enclosing parentheses of types, which are needed for types with commas, are left out in the overrides but
  not in the signature of the mock (`C45_parenthesised`); whether a compiler accepts that text is outside of the model. The
  macro for overloads without specifiers (`..._INFOS_BASIC`) is never selected.
* **C44** (remark) strings are printed without escaping, so printed ranges of strings are ambiguous (`C44_strings_ambiguous`).
* **C37, C39** not violations, since the properties say so, but surprising: assigning over an unfulfilled expectation and the
  end of an unfulfilled sequence terminate the program instead of throwing (`C37_assign_terminates`, `C39_never_caught`).
