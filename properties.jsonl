{"id": "C01", "title": "Times limits are accepted exactly when they make sense", "statement": "expect::times(min,max) throws std::invalid_argument exactly when min<0, max<0 or max<min, and otherwise yields the limits [min,max]; times(n) is [n,n], at_least(n) is [n,INT_MAX], at_most(n) is [0,n], once() is [1,1], twice() is [2,2], and an expectation built without a times policy has the limits [1,1]. No factory ever yields limits with a negative bound or an empty range.", "quantifier": "all pairs of int arguments", "why_tests_cant": "the argument space is 2^64 pairs; tests sample a handful", "anchors": ["include/mimic++/ControlPolicy.hpp:TimesConfig", "include/mimic++/ControlPolicy.hpp:expect::times/at_least/at_most/once/twice", "include/mimic++/ExpectationBuilder.hpp:make_expectation_builder"]}
{"id": "C02", "title": "An expectation is never matched more often than its upper limit", "statement": "In every single-threaded history of API calls, the number of calls resolved by an expectation never exceeds its upper limit, and the internal match counter never overflows int, even for at_least (upper limit INT_MAX).", "quantifier": "all finite histories of creating sequences, mocks, expectations, calling mocks and destroying things; all limits; all matchers", "why_tests_cant": "needs every history, including unboundedly long ones (INT_MAX matches cannot be run)", "anchors": ["include/mimic++/ControlPolicy.hpp:ControlPolicy::consume", "include/mimic++/ControlPolicy.hpp:make_control_state", "include/mimic++/Expectation.hpp:ExpectationCollection::handle_call"]}
{"id": "C03", "title": "A scoped expectation is reported unfulfilled exactly when it was matched too rarely", "statement": "When the ScopedExpectation of an expectation (made of the library's own policies) goes out of scope, an unfulfilled-expectation report naming it is emitted if and only if the number of calls it resolved is below its lower limit; over a whole history each expectation is reported unfulfilled at most once.", "quantifier": "all histories, all expectations, all limits", "why_tests_cant": "requires relating the report to the full history of calls, for every history", "anchors": ["include/mimic++/Expectation.hpp:ExpectationCollection::remove", "include/mimic++/ControlPolicy.hpp:ControlPolicy::is_satisfied", "include/mimic++/Expectation.hpp:ScopedExpectation"]}
{"id": "C04", "title": "Applicability is determined by the call history alone", "statement": "An expectation whose policies accept a call is applicable if and only if it resolved fewer calls than its upper limit and, in each sequence it is attached to, every expectation attached earlier has already resolved at least its lower limit of calls and no expectation attached later has resolved any call. The library's incremental bookkeeping (cursor, per-entry states) agrees with this history-based rule after every history.", "quantifier": "all reachable states, all expectations, any number of sequences shared between any number of mocks", "why_tests_cant": "the library keeps incremental state; only an invariant over all histories shows it never drifts from the rule", "anchors": ["include/mimic++/Sequence.hpp:BasicSequence", "include/mimic++/ControlPolicy.hpp:make_control_state", "include/mimic++/ControlPolicy.hpp:ControlPolicy::update_sequence_states"]}
{"id": "C05", "title": "Sequences enforce order across all mocks", "statement": "If, in any history, a call is resolved by expectation B, then for every sequence shared by A and B with A attached before B, A has at that moment resolved at least its lower limit of calls, and no later call is ever resolved by A. Hence the calls resolved by the expectations of one sequence occur in attachment order, even when the expectations belong to different mocks.", "quantifier": "all histories, all pairs of expectations sharing a sequence", "why_tests_cant": "ordering claims quantify over all interleavings of calls to all mocks", "anchors": ["include/mimic++/Sequence.hpp:BasicSequence::is_consumable", "include/mimic++/Sequence.hpp:BasicSequence::consume"]}
{"id": "C06", "title": "Without sequences the youngest applicable expectation wins", "statement": "If several expectations could resolve a call (they accept it and are applicable) and the most recently created of these is not attached to any sequence, that expectation resolves the call.", "quantifier": "all sets of candidate expectations, all reachable states", "why_tests_cant": "any number of candidates with any mixture of sequences", "anchors": ["include/mimic++/Expectation.hpp:pick_best_match", "include/mimic++/Sequence.hpp:has_better_rating"]}
{"id": "C07", "title": "Lazy sequences make the least, greedy ones the most progress", "statement": "If the expectations that could resolve a call (they accept it and are applicable) are all attached to exactly one and the same lazy sequence, the oldest of them resolves the call (least progress); if it is one and the same greedy sequence, the youngest resolves it (most progress). Whatever sequences the others belong to, an expectation that belongs to one lazy sequence only never resolves a call that an older one of that sequence could resolve, and one that belongs to no lazy sequence resolves a call only if it is the youngest of all that could.", "quantifier": "all reachable states, any number of candidates", "why_tests_cant": "depends on priorities computed from unbounded positions and cursor values", "anchors": ["include/mimic++/Sequence.hpp:LazyStrategy", "include/mimic++/Sequence.hpp:GreedyStrategy", "include/mimic++/Expectation.hpp:pick_best_match"]}
{"id": "C08", "title": "Complete selection rule for overlapping expectations", "statement": "Among all applicable matches the selected one is obtained by scanning from the youngest to the oldest and moving from the current choice X to an older candidate Y exactly when Y is attached to all sequences of X and X is attached to strictly more lazy than greedy sequences. In particular the choice depends only on creation order and on sequence membership, not on cursors or call counts.", "quantifier": "all reachable states, all candidate sets, any number of lazy and greedy sequences per expectation", "why_tests_cant": "the code compares numeric ratings; that they reduce to this rule holds only because of invariants over all histories", "anchors": ["include/mimic++/Sequence.hpp:has_better_rating", "include/mimic++/Expectation.hpp:pick_best_match"]}
{"id": "C09", "title": "A lazy sequence may nevertheless be skipped ahead when sequences overlap", "statement": "The documented promise that a lazy sequence makes the least possible progress does not extend to candidates attached to different sets of sequences: there is a reachable state in which a younger expectation attached to two lazy sequences is selected although an older applicable candidate of one of these sequences would have made less progress. The promise does hold whenever every younger candidate's sequences are also sequences of the older one. Nothing else leads to it: if an expectation of lazy sequences only is chosen although an older one could have resolved the call, the former belongs to a sequence the latter does not belong to.", "quantifier": "existence of a counterexample history; and all candidate sets with nested membership", "why_tests_cant": "needs a precise statement of least progress for overlapping sequences", "anchors": ["include/mimic++/Sequence.hpp:has_better_rating", "include/mimic++/Sequence.hpp docs 58-75"]}
{"id": "C10", "title": "Every call has exactly one reported outcome with complete lists", "statement": "Every call emits exactly one of: a full-match report (when some live expectation of that mock accepts it and is applicable), an inapplicable-matches report (when none is applicable but at least one accepts it) listing exactly the accepting expectations youngest first, or a no-match report listing exactly the live non-throwing expectations youngest first.", "quantifier": "all reachable states and calls", "why_tests_cant": "quantifies over all sets of expectations and all matcher outcomes", "anchors": ["include/mimic++/Expectation.hpp:ExpectationCollection::handle_call", "include/mimic++/Reports.hpp:evaluate_match_report"]}
{"id": "C11", "title": "Calls change only what they must", "statement": "A call that is not resolved by any expectation leaves every expectation and every sequence unchanged. A call that is resolved by expectation E increments the count of E by one and changes the count of no other expectation (of this or any other mock), and does not touch sequences E is not attached to.", "quantifier": "all reachable states and calls", "why_tests_cant": "frame properties over all other objects", "anchors": ["include/mimic++/Expectation.hpp:ExpectationCollection::handle_call", "include/mimic++/ControlPolicy.hpp:ControlPolicy::consume"]}
{"id": "C12", "title": "A throwing matcher is contained", "statement": "If a policy of some expectation throws while a call is being matched, that expectation is reported through the unhandled-exception report (exactly once for that call), takes no further part in the call, and the outcome is the same as if that expectation did not exist.", "quantifier": "all sets of expectations, all subsets of them throwing", "why_tests_cant": "all combinations of throwing and non-throwing matchers", "anchors": ["include/mimic++/Expectation.hpp:make_match_report", "include/mimic++/Expectation.hpp:ExpectationCollection::handle_call"]}
{"id": "C13", "title": "Expectations are in force exactly during their scope", "statement": "An expectation can resolve calls of its mock only between creation and destruction of its ScopedExpectation; it is withdrawn even when its destruction reports it as unfulfilled; expectations of one mock are never considered for calls of another mock.", "quantifier": "all histories", "why_tests_cant": "history property over creation, destruction and calls in any order", "anchors": ["include/mimic++/Expectation.hpp:ExpectationCollection::push", "include/mimic++/Expectation.hpp:ExpectationCollection::remove", "include/mimic++/Expectation.hpp:ScopedExpectation"]}
{"id": "C14", "title": "The end of a sequence reports exactly the missing fulfilments", "statement": "When a sequence object finally dies, it reports an error if and only if some expectation that was attached to it ended with fewer resolved calls than its lower limit; the first number printed is the attachment position of the first such expectation and the second the number of attached expectations. So whenever all attached expectations were fulfilled no error is reported, whatever the order of calls.", "quantifier": "all histories and sequences", "why_tests_cant": "relates the report to the entire history of every attached expectation", "anchors": ["include/mimic++/Sequence.hpp:BasicSequence::~BasicSequence"]}
{"id": "C15", "title": "The sequence error text may undercount", "statement": "The text 'k out of n expectation(s) are satisfied' of the end-of-sequence error does not always state the number of satisfied expectations: there is a history in which it prints a smaller number. It never overstates it.", "quantifier": "existence of a history; all histories for the bound", "why_tests_cant": "quantifies over histories", "anchors": ["include/mimic++/Sequence.hpp:BasicSequence::~BasicSequence"]}
{"id": "C16", "title": "Sequence lifetime", "statement": "A sequence's state lives until its LazySequence/GreedySequence object and every expectation attached to it are gone, in whatever order these die, and is destroyed exactly once; an expectation keeps obeying the order of a sequence whose LazySequence/GreedySequence object is already gone.", "quantifier": "all orders of destruction", "why_tests_cant": "all interleavings of destructions with calls", "anchors": ["include/mimic++/Sequence.hpp:BasicSequenceInterface", "include/mimic++/ControlPolicy.hpp:ControlPolicy"]}
{"id": "C17", "title": "No internal assertion fails and no undefined behaviour occurs for valid clients", "statement": "For every history in which the client uses only live objects, none of the library's assertions on sequences, control policies, priorities and expectation storages fails, no vector is accessed out of range, no optional/variant is accessed wrongly and no int overflows; the only abnormal stop is std::terminate when a sequence already holding 2^31 expectations gets another one.", "quantifier": "all histories of valid client operations", "why_tests_cant": "assertion freedom is a safety property over all histories", "anchors": ["include/mimic++/Sequence.hpp:BasicSequence", "include/mimic++/ControlPolicy.hpp:ControlPolicy", "include/mimic++/Expectation.hpp:pick_best_match"]}
{"id": "C18", "title": "Sequence capacity boundary", "statement": "A sequence accepts expectations while it holds at most INT_MAX of them; ids are handed out consecutively from 0 and always fit into int; attaching one more throws from add(), which inside expectation construction means std::terminate.", "quantifier": "all sequence sizes", "why_tests_cant": "2^31 insertions cannot be tested", "anchors": ["include/mimic++/Sequence.hpp:BasicSequence::add", "include/mimic++/ControlPolicy.hpp:make_sequence_entries"]}
{"id": "C19", "title": "An expectation cannot be attached twice to one sequence", "statement": "in_sequence/in_sequences throw std::invalid_argument exactly when the same sequence occurs more than once among all sequences given to one expectation, no matter how they are distributed over several calls, and a rejected attempt attaches nothing to any sequence.", "quantifier": "all lists of sequences, all ways to split them", "why_tests_cant": "unbounded number of sequences and orders", "anchors": ["include/mimic++/Sequence.hpp:Config", "include/mimic++/Sequence.hpp:Config::concat", "include/mimic++/ExpectationBuilder.hpp:BasicExpectationBuilder"]}
{"id": "C20", "title": "Builder composition", "statement": "An expectation builder keeps every policy in the order it was added, accepts at most one finalizer and at most one times policy, accumulates sequences in the order given, and has no effect on any mock or sequence until it is turned into a ScopedExpectation; positions in sequences follow the order in which ScopedExpectations are created.", "quantifier": "all sequences of builder operations", "why_tests_cant": "all lengths and orders of builder chains", "anchors": ["include/mimic++/ExpectationBuilder.hpp:BasicExpectationBuilder"]}
{"id": "C21", "title": "Overload sets are validated exactly by the C++ rule", "statement": "Two signatures are accepted as overloads of each other exactly when their parameter lists differ, or they agree in being ref-qualified or not and differ in const- or ref-qualification; return type and noexcept play no role; the relation is symmetric and irreflexive; a list of signatures is accepted exactly when all pairs are.", "quantifier": "all lists of signatures", "why_tests_cant": "unbounded lists of signatures over unbounded parameter lists", "anchors": ["include/mimic++/TypeTraits.hpp:is_overloadable_with", "include/mimic++/TypeTraits.hpp:is_overload_set"]}
{"id": "C22", "title": "Overloads do not steal each other's expectations", "statement": "In a mock with a valid overload set, an expectation created through one overload never accepts a call made through a different overload, although overloads differing only in qualifiers share one storage; it does accept calls through its own overload when its other policies do.", "quantifier": "all valid overload sets, all pairs of overloads", "why_tests_cant": "all overload sets", "anchors": ["include/mimic++/Mock.hpp:BasicMockFrontend", "include/mimic++/ExpectationPolicies.hpp:Category", "include/mimic++/ExpectationPolicies.hpp:Constness"]}
{"id": "C23", "title": "One storage per distinct decayed signature", "statement": "The list of storages of a mock contains each decayed signature exactly once, in order of first occurrence, and each overload is bound to the storage of its own decayed signature.", "quantifier": "all lists of signatures", "why_tests_cant": "unbounded lists", "anchors": ["include/mimic++/Utility.hpp:unique_list_t", "include/mimic++/Mock.hpp:Mock"]}
{"id": "C24", "title": "Signature transformations are lawful", "statement": "Adding and removing noexcept and decaying a signature are idempotent, change nothing else (return type, parameters, const/ref qualifiers as documented), removing noexcept undoes adding it, and decaying is insensitive to noexcept and qualifiers.", "quantifier": "all function signatures", "why_tests_cant": "infinitely many signatures", "anchors": ["include/mimic++/TypeTraits.hpp:signature_add_noexcept", "include/mimic++/TypeTraits.hpp:signature_remove_noexcept", "include/mimic++/TypeTraits.hpp:signature_decay"]}
{"id": "C25", "title": "Effects of a resolved call happen in a fixed order", "statement": "A resolved call first reports the full match with the arguments as passed, then counts the match, then runs the side effects in the order they were attached, each observing all changes to the arguments made by the previous ones, then runs the finalizer, whose result or exception is what the caller sees; the match is counted even if the finalizer throws.", "quantifier": "all lists of side effects, all argument values, all finalizers", "why_tests_cant": "unbounded lists of arbitrary actions", "anchors": ["include/mimic++/Expectation.hpp:ExpectationCollection::handle_call", "include/mimic++/Expectation.hpp:BasicExpectation::consume", "include/mimic++/ExpectationPolicies.hpp:SideEffectAction"]}
{"id": "C26", "title": "Argument selection of actions and finalizers", "statement": "apply_arg/apply_args/apply_all/returns_arg/returns_apply_result_of pass exactly the selected arguments, in the order of the given indices and with repetition, by reference, so that the action modifies the caller's objects; arguments not selected and not aliased are untouched.", "quantifier": "all index lists (with repetitions), all argument lists (with aliasing)", "why_tests_cant": "all index lists and aliasing patterns", "anchors": ["include/mimic++/ExpectationPolicies.hpp:ApplyArgsAction", "include/mimic++/ExpectationPolicies.hpp:ApplyAllArgsAction", "include/mimic++/ExpectationPolicies.hpp:ReturnsResultOf"]}
{"id": "C27", "title": "Re-entrant calls from side effects and finalizers are sound", "statement": "If side effects or finalizers themselves call mocks (including the same one), all limits, order and reporting guarantees continue to hold, because the match is counted before any side effect runs: every nested execution corresponds to a flat history of calls.", "quantifier": "all nesting structures of calls, of any depth", "why_tests_cant": "unbounded nesting", "anchors": ["include/mimic++/Expectation.hpp:BasicExpectation::consume", "include/mimic++/Expectation.hpp:ExpectationCollection::handle_call"]}
{"id": "C28", "title": "Exceptions that must not escape terminate", "statement": "An exception thrown by a side effect ends in std::terminate; an exception thrown by the finalizer or by the reporter for an unmatched call reaches the caller, unless the mocked signature is noexcept, in which case it ends in std::terminate.", "quantifier": "all calls and all exception sources", "why_tests_cant": "termination cannot be observed in the unit tests' process", "anchors": ["include/mimic++/Expectation.hpp:BasicExpectation::consume", "include/mimic++/Mock.hpp:MockFrontend"]}
{"id": "C29", "title": "Comparison matchers and negation", "statement": "matches::eq/ne/lt/le/gt/ge accept a target exactly when the comparison of target with the given value holds; negating a matcher accepts exactly the complement, negating twice restores both the accepted set and the description, ne and !eq agree; !lt agrees with ge (and !le with gt) for every totally ordered type, and there is a partially ordered type (NaN) for which they differ. Descriptions are the comparison sign followed by the printed value (\"== 42\"), and those of matchers for instances say which instance.", "quantifier": "all target types, all relations, all values", "why_tests_cant": "all types and values", "anchors": ["include/mimic++/Matcher.hpp:PredicateMatcher", "include/mimic++/Matcher.hpp:matches"]}
{"id": "C30", "title": "String matchers", "statement": "matches::str::eq, starts_with, ends_with and contains accept a target exactly when it equals, has as a prefix, has as a suffix, or contains contiguously the pattern, for every target and pattern including empty ones. Descriptions name the relation and show the printed pattern; negated matchers say so.", "quantifier": "all strings", "why_tests_cant": "unbounded strings", "anchors": ["include/mimic++/Matcher.hpp:matches::str"]}
{"id": "C31", "title": "Case-insensitive string matchers", "statement": "The case-insensitive variants accept exactly when the elementwise upper-cased strings are related by the case-sensitive matcher, so they accept everything the case-sensitive ones accept and are insensitive to ASCII case changes of target or pattern. Intended for every string; but bytes outside 0..127 are passed to std::toupper as negative int when char is signed, which is undefined behaviour. Descriptions of case-insensitive matchers differ from those of the others.", "quantifier": "all strings over all byte values", "why_tests_cant": "unbounded strings, platform dependent behaviour", "anchors": ["include/mimic++/Matcher.hpp:matches::str", "include/mimic++/String.hpp:string_case_fold_converter"]}
{"id": "C32", "title": "Range matchers", "statement": "matches::range::eq accepts exactly elementwise equal ranges, unordered_eq exactly permutations, is_sorted exactly ranges without adjacent inversion (for a strict weak order: globally sorted ranges), is_empty and has_size exactly by length (never for a negative size), each_element and any_element exactly when all/some elements are accepted; !any_element(m) agrees with each_element(!m). Descriptions name the condition and show the printed value; negated matchers have the negated texts.", "quantifier": "all ranges, all element types, all element matchers", "why_tests_cant": "unbounded ranges", "anchors": ["include/mimic++/Matcher.hpp:matches::range"]}
{"id": "C33", "title": "All policies of an expectation must accept", "statement": "A call is accepted by an expectation exactly when every single attached requirement accepts it, independent of their order and multiplicity; requirements are evaluated all, without short-circuiting, and the per-policy report lists one entry per policy in order.", "quantifier": "all lists of policies, all calls", "why_tests_cant": "unbounded policy lists", "anchors": ["include/mimic++/Expectation.hpp:BasicExpectation::matches", "include/mimic++/Reports.hpp:evaluate_match_report", "include/mimic++/ExpectationPolicies.hpp:Requirement"]}
{"id": "C34", "title": "A watched object reports its destruction exactly once", "statement": "Over any history of copying, moving, assigning and destroying watched objects, the destruction watch that was armed by expect_destruct is triggered at most once, and it is triggered exactly when the object currently carrying it is destroyed or copy-assigned over; moved-from objects never trigger; copies start without an expectation; a second expect_destruct on the same object throws std::logic_error. Watched objects do not affect anything else: operations on other mocks, expectations and sequences do what they do in a program without watched objects, and every operation on existing watched objects succeeds, except for the cases named in C35 and C36 and an expectation that is attached to a full sequence.", "quantifier": "all histories of object operations", "why_tests_cant": "histories of moves and copies are unbounded", "anchors": ["include/mimic++/ObjectWatcher.hpp:LifetimeWatcher"]}
{"id": "C35", "title": "Lifetime watcher gaps", "statement": "Move-assigning over a watched object silently discards the destruction watch of the overwritten object: its destruction is never triggered and its expectation stays unfulfilled. Calling expect_destruct on a moved-from object without earlier expectation dereferences a null pointer.", "quantifier": "existence of such histories", "why_tests_cant": "undefined behaviour and silent loss are not observable reliably in tests", "anchors": ["include/mimic++/ObjectWatcher.hpp:LifetimeWatcher"]}
{"id": "C36", "title": "A watched object reports each relocation on the moved-from object's watch", "statement": "Each move-construction or move-assignment from a watched object triggers exactly one relocation on the watch carried by the source, which then travels to the destination, so consecutive moves A->B->C trigger the watch armed on A twice; if the trigger fails (no expectation, or one that throws itself) neither object changes. Moving from an already moved-from object is undefined behaviour.", "quantifier": "all histories of moves and copies", "why_tests_cant": "unbounded histories", "anchors": ["include/mimic++/ObjectWatcher.hpp:RelocationWatcher"]}
{"id": "C37", "title": "Ownership of scoped expectations", "statement": "Through any history of moves, each expectation is withdrawn and checked exactly once; moved-from ScopedExpectations do nothing on destruction; assigning over a ScopedExpectation whose expectation is unfulfilled terminates the program with a throwing reporter, because the check then runs inside a noexcept operation.", "quantifier": "all histories of move-construction, move-assignment and destruction", "why_tests_cant": "unbounded histories; termination", "anchors": ["include/mimic++/Expectation.hpp:ScopedExpectation"]}
{"id": "C38", "title": "The default reporter's exceptions", "statement": "The default reporter throws for every unmatched or inapplicable call, throws for unfulfilled expectations and errors exactly when no exception is currently propagating, and never throws for full matches and unhandled matcher exceptions; so while an exception is propagating, destruction of any number of unfulfilled expectations does not terminate.", "quantifier": "all sequences of reports, all numbers of active exceptions", "why_tests_cant": "all exception contexts", "anchors": ["include/mimic++/Reporter.hpp:DefaultReporter"]}
{"id": "C39", "title": "An unfulfilled-sequence error never becomes a catchable exception", "statement": "With the default reporter, the error reported at the end of an unfulfilled sequence is either silent (an exception is already propagating) or terminates the program, because the sequence always dies inside a std::shared_ptr release; it never reaches the user as an exception.", "quantifier": "all histories and exception contexts", "why_tests_cant": "termination; all destruction orders", "anchors": ["include/mimic++/Sequence.hpp:BasicSequence::~BasicSequence", "include/mimic++/Sequence.hpp:BasicSequenceInterface", "include/mimic++/ControlPolicy.hpp:ControlPolicy"]}
{"id": "C40", "title": "Concurrent use", "statement": "Several threads create, withdraw and query expectations (without sequences, which are documented as not thread-safe) and call mocks. Under every schedule: a call sees exactly the expectations that have been created and not withdrawn, and takes the youngest one that may still take calls by the counts of that moment; no counted call is lost. Intended: limits hold, and nothing is undefined. But matching and counting are separate steps, and only matching is protected by the mock's mutex: (1) two threads can make an expectation for one call resolve any number of calls (with assertions: undefined behaviour); (2) an expectation that is withdrawn while a call it resolves is in flight is used after its destruction; (3) counting a call races with every later call of another thread on that mock, unless the first thread has given back some mutex in between. All of this is impossible if calls of a mock do not overlap each other or the end of their expectation, which a mutex of the client achieves: then the schedule behaves as a history of a single thread.", "quantifier": "all schedules of any number of threads, mocks and expectations, with and without assertions", "why_tests_cant": "schedules cannot be enumerated by tests", "anchors": ["include/mimic++/Expectation.hpp:ExpectationCollection", "include/mimic++/Expectation.hpp:ScopedExpectation", "include/mimic++/ControlPolicy.hpp:ControlPolicy::consume"]}
{"id": "C41", "title": "Times description", "statement": "The printed state of an expectation states 'saturated' exactly when the number of matches equals the upper limit, states that the expectation is unsatisfied together with the required limits exactly when the count is below the lower limit, and otherwise states that it accepts further matches; the text determines the count and the upper limit uniquely.", "quantifier": "all counts and limits", "why_tests_cant": "infinitely many number triples", "anchors": ["include/mimic++/Reports.hpp:print_times_state"]}
{"id": "C42", "title": "Mocks survive moves and may die before their expectations", "statement": "Moving a mock transfers its expectations to the new object and destroying a mock does not invalidate live expectations, which are still checked at the end of their scope; calling a moved-from mock is undefined behaviour.", "quantifier": "all histories of moves, destructions and calls", "why_tests_cant": "unbounded histories", "anchors": ["include/mimic++/Mock.hpp:Mock", "include/mimic++/Expectation.hpp:ScopedExpectation"]}
{"id": "C43", "title": "Match report texts are consistent with the outcome", "statement": "The printed match report announces a full match, an inapplicable match or no match exactly according to the evaluated outcome, lists each described policy exactly once, in order, under passed or failed according to its result, and omits policies without a description.", "quantifier": "all match reports", "why_tests_cant": "all lists of policy results", "anchors": ["include/mimic++/Reports.hpp:Printer<MatchReport>", "include/mimic++/Reports.hpp:evaluate_match_report"]}
{"id": "C44", "title": "Printed values", "statement": "Ranges and tuples are printed with their elements in order, separated by commas inside braces, optionals print their value or nullopt, pointers print as 0x followed by at least 16 lower-case hex digits denoting the address uniquely, and values without any printer print as {?}.", "quantifier": "all values", "why_tests_cant": "infinitely many values and nestings", "anchors": ["include/mimic++/Printer.hpp"]}
{"id": "C45", "title": "Interface mocks: generated methods", "statement": "A method mocked with MOCK_METHOD or MOCK_OVERLOADED_METHOD becomes exactly one override for each listed overload, in this order, with the given result type, parameter types and specifiers, and one mock with one signature for each overload. In each override the parameters have pairwise different names and all of them are forwarded to the mock, in declaration order and with their own types. This holds for up to 86 overloads with up to 86 parameters each; with more overloads the expansion is incomplete.", "quantifier": "all method names, numbers of overloads and parameters, types and specifiers (with or without enclosing parentheses), and both the prefixed and the short macros", "why_tests_cant": "the text of a type and the number of overloads and parameters are unbounded; the macros rely on repeated rescanning", "anchors": ["include/mimic++/InterfaceMock.hpp: MIMICPP_MOCK_METHOD, MIMICPP_MOCK_OVERLOADED_METHOD, MIMICPP_ADD_OVERLOAD, MIMICPP_DETAIL_FOR_EACH_EXT"]}
{"id": "C46", "title": "Descriptions do not influence matching", "statement": "The description given to a predicate matcher is only used in reports: whether a call is accepted depends on the predicate alone, whatever characters the description contains. What is reported about an expectation are the descriptions of its requirements, in order.", "quantifier": "all predicates, descriptions, arguments and histories", "why_tests_cant": "all description texts; the failure only shows for texts with braces", "anchors": ["include/mimic++/Matcher.hpp: PredicateMatcher::describe, matches::predicate", "include/mimic++/Expectation.hpp: detail::make_match_report"]}
{"id": "C49", "title": "Watched objects", "statement": "A watched object behaves like the watchers its type names, in declaration order: a successful move carries every watch to the new object, triggers each relocation watch once and no destruction watch; destruction triggers each destruction watch it carries exactly once; an exception never leaves an operation that the client's class promises not to throw from; the program is terminated only if an exception would leave such an operation, or if a second exception is thrown while watchers are destroyed because of the first; every other operation on objects that exist is carried out, unless it uses a watcher that has nothing left to watch with.", "quantifier": "all lists of watchers, client classes, histories of creations, copies, moves, assignments, destructions and expectations", "why_tests_cant": "all combinations and histories", "anchors": ["include/mimic++/ObjectWatcher.hpp: CombinedWatchers, BasicWatched, Watched, LifetimeWatcher, RelocationWatcher"]}
{"id": "C50", "title": "Failing operations on watched objects", "statement": "If the construction, copy or move of a watched object fails with an exception, the objects that exist keep their watches, no destruction is reported, and the exception reaches the client.", "quantifier": "all lists of watchers, client classes and histories", "why_tests_cant": "depends on the order of the watchers and on the failing step", "anchors": ["include/mimic++/ObjectWatcher.hpp: CombinedWatchers, LifetimeWatcher::~LifetimeWatcher, RelocationWatcher move"]}
{"id": "C51", "title": "Failure messages tell the whole story", "statement": "For every call, the texts handed to the reporter describe one by one what happened: an unmatched call lists the number and every expectation of the mock in force that did not throw, youngest first, with its definition site and its failed and passed policies; an inapplicable call lists every accepting expectation with the reason (matches so far, limits, number of sequences in which it is not its turn); a resolved call names the expectation; an exception names the expectation that threw. The call is described with all its arguments, numbered in order. The message about an unfulfilled expectation states how often it was matched and should have been matched.", "quantifier": "all histories, all calls, all argument lists", "why_tests_cant": "all combinations of expectations, histories and arguments", "anchors": ["include/mimic++/Reporter.hpp:stringify_no_match_report", "include/mimic++/Reporter.hpp:stringify_inapplicable_match_report", "include/mimic++/Reports.hpp:CallReport", "include/mimic++/Expectation.hpp:ExpectationCollection::handle_call"]}
{"id": "C52", "title": "Arguments that are character pointers", "statement": "Calling a mock never reads through the client's pointers unless a matcher of the client does. Violated: every call prints all its arguments, also when it is resolved, and a pointer to characters is read up to a terminating zero; so a null pointer or a pointer to a buffer without terminator makes every call of the mock undefined behaviour. All other arguments are safe.", "quantifier": "all histories, all argument lists", "why_tests_cant": "the fault is undefined behaviour and depends on memory contents", "anchors": ["include/mimic++/Reports.hpp:make_call_report", "include/mimic++/String.hpp:string_traits", "include/mimic++/Printer.hpp"]}
{"id": "C47", "title": "Named matchers are not consumed", "statement": "A matcher that the client holds in a variable can be used again after it was passed, by its name, to another matcher, to an expectation, or to operator !: tests and descriptions of it are as before. Violated by each_element and any_element: they move from a named matcher, so its description is lost, and its stored value too if moving takes it away; a const variable is not accepted at all.", "quantifier": "all programs that create objects and matchers, combine, invert, store, drop, test and describe them in any order", "why_tests_cant": "all orders of uses, all stored values; the results after moving are unspecified", "anchors": ["include/mimic++/Matcher.hpp:each_element", "include/mimic++/Matcher.hpp:any_element", "include/mimic++/Matcher.hpp:PredicateMatcher::operator !", "include/mimic++/ExpectationPolicies.hpp:expect::arg"]}
{"id": "C48", "title": "Matchers keep the values they were given", "statement": "What a matcher tests and what its description says is determined by the values its factory was given: later changes, moves and the end of the life of these objects have no effect. Violated where a matcher keeps a reference instead: the range matchers refer to a named range, the string matchers refer to the characters of a char array or pointer, and views and reference wrappers refer by nature; the matcher then follows changes of the object, and using it after the life of the object is undefined behaviour.", "quantifier": "all programs that create objects and matchers, change, move from and destroy the objects, and use the matchers", "why_tests_cant": "all orders of changes and uses; dangling references are undefined behaviour", "anchors": ["include/mimic++/Matcher.hpp:matches::eq", "include/mimic++/Matcher.hpp:matches::str::eq", "include/mimic++/Matcher.hpp:matches::range::eq", "include/mimic++/Matcher.hpp:matches::predicate"]}
{"id": "C53", "title": "What returning and throwing finalizers hand out", "statement": "finally::returns(value) yields the value that it was given at every call, and finally::throws(exception) throws it at every call, whatever happens to the original. A mock that returns a reference gives the caller access to the stored value: what is assigned through it is returned by later calls, and a caller that moves from an rvalue reference takes the value away from later calls. With a std::reference_wrapper the current value of the object is returned, and calls after its life are undefined behaviour.", "quantifier": "all programs that create objects and finalizers, change and destroy the objects, and call the finalizers, with any use of what they return", "why_tests_cant": "all orders of calls, uses of returned references, and changes of objects", "anchors": ["include/mimic++/ExpectationPolicies.hpp:ReturnsResultOf", "include/mimic++/ExpectationPolicies.hpp:finally::returns", "include/mimic++/ExpectationPolicies.hpp:finally::throws"]}
{"id": "C54", "title": "Arguments of expect_call", "statement": "expect_call(a1, ..., an) accepts exactly those calls whose argument number i is what ai asks for: a satisfied matcher, for two strings the same text (of a C string the part before its first zero), otherwise an equal value; every argument with an operator == for its parameter is accepted. Violated: std::pair and std::tuple arguments do not compile; -1 given for an unsigned parameter accepts the largest value. Comparing a null or not terminated C string is undefined behaviour.", "quantifier": "all parameter lists, all arguments, all calls", "why_tests_cant": "all combinations of parameter and argument types and values", "anchors": ["include/mimic++/ExpectationBuilder.hpp:make_arg_matcher", "include/mimic++/ExpectationBuilder.hpp:requirement_for", "include/mimic++/Matcher.hpp:matches::eq", "include/mimic++/Matcher.hpp:matches::str::eq", "include/mimic++/String.hpp:string_traits"]}
{"id": "C55", "title": "Failing to create an expectation", "statement": "If a policy or finalizer of the client throws while an expectation is created, the exception reaches the client and everything goes on as if the creation had not been attempted. Violated: while the expression is still being composed the program terminates; if the last construction fails, the exception comes out, but the sequences keep an entry that can never be satisfied, so that later expectations of the sequence never match and the end of the sequence always reports an error. Only attempts without sequences, or without a required call, leave no trace.", "quantifier": "all creation expressions, all constructions at which an object may throw, all histories before and after", "why_tests_cant": "combinations of a failing construction anywhere in a chain with arbitrary later histories", "anchors": ["include/mimic++/ExpectationBuilder.hpp:BasicExpectationBuilder", "include/mimic++/ExpectationBuilder.hpp:finalize", "include/mimic++/Expectation.hpp:BasicExpectation", "include/mimic++/ControlPolicy.hpp:ControlPolicy", "include/mimic++/ControlPolicy.hpp:make_sequence_entries"]}
{"id": "C56", "title": "Overloads meant by expectations", "statement": "For a mock with several overloads, mock.expect_call(args...) makes an expectation for the overload that mock(args...) would call on the same object; it compiles whenever the call does. Violated: expectations are resolved by the object alone, so they are ambiguous where calls are not, and with overloads of different constness they may silently concern another overload than the call. They agree if each of the two overloads is possible for the other expression, and overloads that differ in qualifiers only are always told apart.", "quantifier": "all overload sets, all implicit conversions, all kinds of object expressions, all arguments", "why_tests_cant": "tests cover a few overload sets; overload resolution depends on all overloads and conversions at once", "anchors": ["include/mimic++/Mock.hpp:Mock", "include/mimic++/Mock.hpp:MockFrontend", "include/mimic++/ExpectationBuilder.hpp:requirement_for"]}
{"id": "C57", "title": "Interface mocks: methods reach their own overload", "statement": "A method that is generated by the interface mock macros calls the overload of the mock that has its signature. Violated for methods with &&: they never call their own overload; they call that of another method, or do not compile. Every other method that compiles calls its own overload, and it compiles if the overloads that suit its parameters differ in qualifiers only.", "quantifier": "all overload sets, all implicit conversions, all methods", "why_tests_cant": "depends on overload resolution inside of the generated method for every combination of overloads", "anchors": ["include/mimic++/InterfaceMock.hpp:MIMICPP_DETAIL_MAKE_METHOD_OVERRIDE", "include/mimic++/InterfaceMock.hpp:MIMICPP_DETAIL_FORWARD_ARG", "include/mimic++/Mock.hpp:MockFrontend"]}
{"id": "C58", "title": "A passing test means what it says", "statement": "If a test passes, then every call of a mock was resolved by an expectation, and every expectation that was created got at least as many calls as it asked for and at most as many as it allowed; and if nothing went wrong, no failure is recorded and the library throws nothing. Violated: an expectation that ends while an exception is on its way is not checked, so if the exception is caught the test passes; with the default reporter, exceptions swallowed by the code under test hide unexpected calls. It holds for tests that catch nothing, and with the framework adapters for tests that throw nothing themselves, even if everything is swallowed. With the adapters exactly one failure is recorded for everything else that goes wrong. With the adapters for Catch2, Doctest and GoogleTest each resolved call counts as an assertion that holds. No test runs into undefined behaviour, each expectation is checked exactly once, the ends of blocks only use what exists, and at the end no object is left.", "quantifier": "all structured test programs (scopes, sequences, moves, destructors that call mocks, exceptions, handlers), all adapters and installations of reporters", "why_tests_cant": "a test cannot judge its own verdict; the interplay of scopes, unwinding, handlers and reporters has unboundedly many forms", "anchors": ["include/mimic++/adapters/Catch2.hpp:send_fail", "include/mimic++/adapters/gtest.hpp:send_fail", "include/mimic++/adapters/BoostTest.hpp:send_fail", "include/mimic++/adapters/Doctest.hpp:send_fail", "include/mimic++/Reporter.hpp:BasicReporter", "include/mimic++/Reporter.hpp:DefaultReporter", "include/mimic++/Expectation.hpp:ScopedExpectation"]}
{"id": "C59", "title": "Printing the arguments does not decide how a call ends", "statement": "A call of a mock ends in the way its expectations demand, whatever its arguments are. Violated: every call prints all its arguments before anything is counted or reported. If the client's printer for an argument throws, the call ends with that exception, unexpected calls are not reported and expected ones not counted; if a matcher throws as well, the program ends. Objects that contain themselves, such as every non-empty std::filesystem::path, are printed endlessly, so that calls with them never return. It holds exactly for arguments that are nested finitely, contain no throwing printer and no unreadable string: these are printed, and calls with them end as the expectations say. A client's printer always comes first, then tuples, then ranges, then formatting.", "quantifier": "all argument types and values (by what the compiler knows about them), all nestings, all histories and calls", "why_tests_cant": "nesting is unbounded, the printable types are an open set, and endless recursion cannot be observed by a test that has to return", "anchors": ["include/mimic++/Printer.hpp:print", "include/mimic++/Reports.hpp:make_call_report", "include/mimic++/Expectation.hpp:make_match_report", "include/mimic++/Expectation.hpp:handle_call"]}
{"id": "C60", "title": "Matchers may use other mocks", "statement": "A matcher may call mocks while it looks at the arguments of a call; every call then ends as if the calls had been made one after the other. Violated: a matcher that calls its own mock, directly or through others, never gets an answer (a std::mutex is locked twice); if a sequence connects the mocks involved, answers are outdated when the last matcher has been asked: an assertion of the library fails, or a call is reported as inapplicable although an expectation could resolve it; and two threads whose matchers call each other's mocks may wait for each other for ever. It holds if matchers only call mocks of lower layers and sequences do not connect layers: then calls end as if made one after the other in the order in which they end, nothing undefined happens, every call returns, with any number of threads in every schedule, and the expectations of a mock are asked by one thread at a time.", "quantifier": "all programs whose matchers are programs that call mocks, depending on the answers, nested to any depth; all histories; for several threads all schedules", "why_tests_cant": "nesting, programs and schedules are unbounded; deadlocks depend on the schedule and cannot be observed by a test that has to return", "anchors": ["include/mimic++/Expectation.hpp:ExpectationCollection::handle_call", "include/mimic++/Expectation.hpp:BasicExpectation::matches", "include/mimic++/Expectation.hpp:make_match_report", "include/mimic++/ControlPolicy.hpp:ControlPolicy::consume"]}
{"id": "C61", "title": "Reports name the overloads", "statement": "The reports about a call of a mock with several overloads say which overload was called (whether it is const and on which objects it can be used), and for every expectation they list through which overload it was set up. That line stands among what passed exactly if the two overloads can be used on a common kind of object, respectively are equally const, and among what failed otherwise. So an expectation of another overload in the report about an unmatched call always has a failed line that tells why, and one of the same overload never has. Reports about unfulfilled expectations and about exceptions of matchers name the overload, too, even if the mock is already dead. The words tell all kinds of overloads apart.", "quantifier": "all sets of overloads, all histories with mocks (moves, early deaths), all calls and expectations, all lists of policies", "why_tests_cant": "overload sets, histories and lists of expectations are unbounded; a test compares a few texts", "anchors": ["include/mimic++/Mock.hpp:BasicMockFrontend::handle_call", "include/mimic++/Mock.hpp:BasicMockFrontend::make_expectation_builder", "include/mimic++/ExpectationPolicies.hpp:Category::describe", "include/mimic++/ExpectationPolicies.hpp:Constness::describe", "include/mimic++/Printer.hpp:formatter<ValueCategory>", "include/mimic++/Printer.hpp:formatter<Constness>", "include/mimic++/Reports.hpp:make_call_report"]}
{"id": "C62", "title": "What returns_arg hands out", "statement": "finally::returns_arg<i>() hands the caller the i-th argument of the call in the state in which the side effects left it. If the mock returns a reference, that is the caller's object itself. A call changes the caller's objects only as far as side effects do so, moves from objects that the caller passed with std::move to a by-value parameter, and moves an rvalue reference parameter into the result if the mock returns an object. Violated: a mock that returns a reference may be combined with a by-value parameter, or called with a temporary; the caller then gets a dangling reference. A mock with an lvalue reference parameter may return T&&, so that an object that was passed by name is moved from when the result is used.", "quantifier": "all parameter types and return types (value and all references), all lists of arguments (lvalues, std::move, temporaries), all lists of side effects that read, assign or move from arguments", "why_tests_cant": "all combinations of parameter lists, value categories, side effects and return types; dangling references usually go unnoticed", "anchors": ["include/mimic++/ExpectationPolicies.hpp:finally::returns_arg", "include/mimic++/ExpectationPolicies.hpp:expectation_policies::ReturnsResultOf", "include/mimic++/ExpectationPolicies.hpp:detail::apply_args_fn", "include/mimic++/ExpectationPolicies.hpp:then::apply_arg", "include/mimic++/Mock.hpp:BasicMockFrontend::handle_call"]}
{"id": "C63", "title": "String matchers on Unicode texts", "statement": "On well-formed UTF-8, UTF-16 and UTF-32 texts the string matchers, which compare code units, decide about code points: eq, starts_with, ends_with and contains accept a text exactly if its code points are, start with, end with or contain those of the pattern; no match begins or ends inside a code point. With case_insensitive both strings are converted as a whole by the string_case_fold_converter of the character type, strings with the same result are interchangeable, and with a converter that folds code points (the experimental Unicode configuration) a text is accepted exactly if it, or its beginning, its end or some part of it, is case-insensitively equal to the pattern; so everything the case-sensitive matcher accepts is accepted. Violated: a code point may be folded to several, of which a match may take only some: \"\u00df\" starts with, ends with and contains \"s\" case-insensitively although no part of it equals \"s\". Patterns that are not well-formed may be found case-sensitively, but not case-insensitively.", "quantifier": "all texts, all four kinds of matchers, three encodings, all converters and character types", "why_tests_cant": "texts and converters are unbounded; whether matches can straddle code points depends on all pairs of texts", "anchors": ["include/mimic++/Matcher.hpp:matches::str", "include/mimic++/Matcher.hpp:matches::detail::make_case_folded_string", "include/mimic++/String.hpp:string_case_fold_converter", "include/mimic++/String.hpp:case_foldable_string"]}
{"id": "C64", "title": "Asking expectations leaves the arguments alone", "statement": "When a mock is called, every living expectation judges the arguments as the caller has passed them, whichever other expectations there are, and matching by itself changes no object of the caller; all reports about the call show the arguments as they were passed. Violated: matchers get their target as a non-const lvalue. A matcher that changes it (which the documentation forbids) changes the caller's variable even if the call is not resolved, and what older expectations judge. The library's own range::eq does so on ranges that can be passed only once. In general: the living expectations are asked the youngest first, each matcher judges what those before it have left, the caller keeps what all have left, and apart from that everything is as if the answers had been given by matchers that leave their targets alone.", "quantifier": "all histories of expectations and calls, all matchers (any answer, any change of the arguments, exceptions), all arguments", "why_tests_cant": "interactions of arbitrary matchers through shared arguments, over all sets of living expectations", "anchors": ["include/mimic++/ExpectationPolicies.hpp:expect::arg", "include/mimic++/ExpectationPolicies.hpp:expectation_policies::Requirement", "include/mimic++/Matcher.hpp:detail::matches_hook::matches", "include/mimic++/Matcher.hpp:matches::range::eq", "include/mimic++/Expectation.hpp:ExpectationCollection::handle_call", "include/mimic++/Expectation.hpp:detail::make_match_report"]}
{"id": "C65", "title": "Custom matchers mean the same everywhere", "statement": "A class can be used as a matcher if custom::matcher_traits or the class itself offers matches for the target and describe, independently of each other; traits take precedence. What it then answers and how it is described is the same wherever matchers are accepted; range::each_element(m) accepts a range if m accepts each element, range::any_element(m) if m accepts some element. Violated: each_element and any_element call the member matches directly, so that a matcher with traits only (all matchers of Catch2, with the adapter's integration) does not compile there, and one with both may give an answer that contradicts the one it gives about a single object.", "quantifier": "all combinations of traits and members, const and non-const targets, all answers (and exceptions), all ranges, any nesting of each_element and any_element", "why_tests_cant": "all matcher classes and ranges; programs that must not compile cannot be unit tests", "anchors": ["include/mimic++/Matcher.hpp:detail::matches_hook", "include/mimic++/Matcher.hpp:detail::describe_hook", "include/mimic++/Matcher.hpp:matcher_for", "include/mimic++/Matcher.hpp:matches::range::each_element", "include/mimic++/Matcher.hpp:matches::range::any_element", "include/mimic++/adapters/Catch2.hpp:custom::matcher_traits"]}
{"id": "C66", "title": "Expectations from inner scopes are preferred", "statement": "If several expectations could resolve a call, it is resolved by the one from the innermost scope: mimic++ \"just makes the guarantee, that expectations from most inside scope will be preferred over expectations from further outside\". Scopes are properly nested whatever a test does (exceptions, handlers, moves). The guarantee holds for tests that leave expectations in the scopes they were created in, if no expectation that could resolve the call is attached to more lazy than greedy sequences, or if that from the outer scope is attached to no lazy sequence. Violated otherwise: with a lazy sequence the outer expectation is taken, even past an inner one that is attached to no sequence at all; an expectation that was assigned to an object of an outer scope keeps its preference, and one that was moved into an inner scope does not gain any.", "quantifier": "all test programs with scopes, exceptions and handlers, all reporters, every call in them, all expectations and sequences", "why_tests_cant": "all programs and nestings of scopes; the repository's tests keep everything in one scope", "anchors": ["include/mimic++/Expectation.hpp:ExpectationCollection::handle_call", "include/mimic++/Expectation.hpp:ScopedExpectation", "include/mimic++/Sequence.hpp:BasicSequence::priority_of"]}
{"id": "C67", "title": "Policies and finalizers of the user's own", "statement": "Users may write their own expectation policies and finalizers, with state of their own. Such a policy sees exactly the calls its expectation takes, once each, in the order they are made, and its policies see each call in the order they were attached, each with what the former left of the arguments; the finalizer runs after all of them and says what the call returns. A call is resolved iff there is an expectation of the mock whose turn it is and whose policies, as they are by then, all accept the call; which one is chosen and what is reported does not depend on anything else the policies do. A policy that throws when asked about a call is reported and its expectation passed over; one that throws while it consumes a call ends the program; nothing undefined happens. An expectation is satisfied (and not reported as unfulfilled at its end) iff it has taken enough calls and all its policies, as they are by then, say that they are satisfied. Policies without state and demands, like all of the library's, add nothing to this.", "quantifier": "all policies and finalizers (arbitrary functions on arbitrary states), all histories of mocks, expectations, sequences and calls", "why_tests_cant": "all user-written policies, states and histories; the repository's tests use mocked policies that take one call", "anchors": ["include/mimic++/Expectation.hpp:expectation_policy_for", "include/mimic++/Expectation.hpp:finalize_policy_for", "include/mimic++/Expectation.hpp:BasicExpectation::consume", "include/mimic++/Expectation.hpp:BasicExpectation::is_satisfied", "include/mimic++/Expectation.hpp:BasicExpectation::finalize_call", "README.md:Customizability"]}
{"id": "C68", "title": "Requirements count only for what they say", "statement": "What a test observes (which expectation resolves a call, which reports are made, which exceptions are thrown, what is reported at the end of scopes) depends on the requirements of expectations only through what they say about the calls that are made. So replacing requirements by ones that give the same answers to the calls that occur changes nothing, even if the arguments have other types; in particular the order in which requirements are stated, stating one twice, adding one that is always met (the wildcard), joining two to one, and changing how one describes itself do not matter (the texts of reports aside).", "quantifier": "all programs and histories, all requirements that are functions of the call, all pairs of argument types", "why_tests_cant": "a statement about pairs of arbitrary programs", "anchors": ["include/mimic++/Expectation.hpp:BasicExpectation::matches", "include/mimic++/Reports.hpp:evaluate_match_report", "include/mimic++/Expectation.hpp:detail::pick_best_match", "include/mimic++/ExpectationPolicies.hpp:expect::arg", "include/mimic++/Matcher.hpp:matches::_"]}
{"id": "C69", "title": "Custom printers are preferred", "statement": "If a program has a custom printer for a type, objects of that type are printed by it in all reports, no matter what else could print them, also inside of optionals, tuples, ranges and strings at any depth; it changes nothing about objects in which that type does not occur. The way in which an object is passed (const or not, lvalue or temporary) does not change its text.", "quantifier": "all sets of custom printers, all objects of any nesting, all ways of passing them", "why_tests_cant": "ranges over all nestings of types and all sets of custom printers; tests try a handful of types", "anchors": ["include/mimic++/Printer.hpp:custom::Printer", "include/mimic++/Printer.hpp:printer_for", "include/mimic++/Printer.hpp:detail::PrintFn", "include/mimic++/Reports.hpp:make_call_report", "examples/CustomPrinter.cpp"]}
{"id": "C70", "title": "Independent parts of a test do not influence each other", "statement": "If a test consists of parts that share no mocks, sequences and expectations, then each part observes exactly what it would observe alone (which expectation resolves each call, all reports, errors and rejections, and at which of its operations), no matter in which order the parts take turns and what the other parts do, even if those fail.", "quantifier": "any number of parts, all programs, all interleavings of their operations", "why_tests_cant": "a statement about all pairs of programs and all their interleavings", "anchors": ["include/mimic++/Expectation.hpp:ExpectationCollection", "include/mimic++/Expectation.hpp:ScopedExpectation", "include/mimic++/Sequence.hpp:detail::BasicSequence", "include/mimic++/ControlPolicy.hpp:ControlPolicy"]}
{"id": "C71", "title": "The order in which an expectation names its sequences does not matter", "statement": "If expectations name the same sequences in another order (in_sequences(a, b) or in_sequences(b, a)), then the same operations succeed, each call is resolved by the same expectation or reported in the same way, and the same violations are reported. Only the sequences that are kept alive by nothing but an expectation that goes out of scope may end in another order.", "quantifier": "all histories, any number of expectations with reordered sequences", "why_tests_cant": "a statement about all pairs of programs; tests fix one order", "anchors": ["include/mimic++/Sequence.hpp:sequence::detail::has_better_rating", "include/mimic++/Sequence.hpp:sequence::detail::Config", "include/mimic++/ControlPolicy.hpp:ControlPolicy", "include/mimic++/ControlPolicy.hpp:detail::make_sequence_entries", "include/mimic++/Expectation.hpp:detail::pick_best_match"]}
{"id": "C72", "title": "Threads with mocks of their own do not disturb each other", "statement": "If every mock is used by one thread only (that thread alone sets up, queries and withdraws its expectations and calls it), then, however the threads run, there is no data race although nothing is locked, every step is defined, no expectation takes more calls than it allows, and what becomes of each call, what is reported about an expectation that is withdrawn and what a query answers is determined by what that thread itself did.", "quantifier": "all numbers of threads and mocks, all programs of the threads, all schedules", "why_tests_cant": "a statement about all schedules; tests see the few that happen to occur, and data races need not show", "anchors": ["include/mimic++/Expectation.hpp:ExpectationCollection::push", "include/mimic++/Expectation.hpp:ExpectationCollection::remove", "include/mimic++/Expectation.hpp:ExpectationCollection::handle_call", "include/mimic++/ControlPolicy.hpp:ControlPolicy::consume"]}
{"id": "C73", "title": "Threads with mocks and sequences of their own", "statement": "If no mock, sequence or expectation is used by more than one thread, then in every interleaving of the threads' steps, also when a thread is interrupted in the middle of a call, of the creation or of the end of an expectation, each thread observes exactly what it would observe alone, in a single-threaded program, and no memory is written by one thread and accessed by another. Threads may share mocks and sequences if a lock of the client's own separates their operations; then everything is as in a single-threaded program. Sharing a sequence without such a lock is a data race even if all mocks are the threads' own.", "quantifier": "all numbers of threads, all programs of the threads, all interleavings of their steps", "why_tests_cant": "a statement about all interleavings; a test sees the few that happen to occur, and data races need not show", "anchors": ["include/mimic++/Expectation.hpp:ExpectationCollection", "include/mimic++/ControlPolicy.hpp:ControlPolicy", "include/mimic++/Sequence.hpp:detail::BasicSequence", "include/mimic++/ExpectationBuilder.hpp:BasicExpectationBuilder::finalize"]}
{"id": "C74", "title": "Expectations that are not used can be left out", "statement": "If an expectation that belongs to no sequence resolves none of the calls of a test, and no call is rejected because of it alone (which can only happen if it forbids calls), then the test without that expectation runs in exactly the same way: the same operations succeed, the same calls are resolved by the same expectations, the same reports are made, apart from the mention of that expectation. In particular, an expectation without sequences has no influence on calls it does not accept. The same holds for an expectation that belongs to sequences and need not be used (lower limit 0) if it rejects all calls of its mock, or if all sequences of the test are greedy, or if all expectations that compete with it belong to the same sequences, or if whenever it could have resolved a call a younger one could, too, and none of the younger ones gave way to it; in general, exactly if the choice among the others is the same. It is then missing where the members of a sequence are counted. It must not be the only one to keep a sequence in existence, which it never is if it goes out of scope before the client's sequence objects. For all expectations that belong to sequences, and need not be used, this is intended, too, but does not hold: if expectations with different sets of lazy sequences compete for a call, one that is not chosen can decide which of the others is.", "quantifier": "all histories of any number of mocks, sequences, expectations and calls, and all expectations in them", "why_tests_cant": "a comparison of every test with the test that lacks one of its expectations", "anchors": ["include/mimic++/Expectation.hpp:ExpectationCollection::handle_call", "include/mimic++/Expectation.hpp:detail::pick_best_match", "include/mimic++/Sequence.hpp:sequence::detail::has_better_rating"]}
{"id": "C75", "title": "A test with one sequence is a regular expression for calls", "statement": "A test that creates expectations for any number of mocks, all in one sequence, then makes calls and then ends everything passes (no report of an unmatched or inapplicable call, an unfulfilled expectation or an unfulfilled sequence) only if the calls are a word of the regular expression part1{min,max} part2{min,max} ..., with one part for each expectation in the order of their creation: they consist of a block for each expectation, in this order, each within its limits and accepted by it. If no call fits two expectations, the test passes for all these words. If calls fit several expectations, the sequence decides for each call at once and never goes back: a lazy sequence matches as the regular expression with possessive quantifiers does, each expectation taking as many calls as it can; a greedy one goes on to a later expectation as soon as it can. So a test may then fail although the calls are a word.", "quantifier": "all numbers of mocks and expectations, all limits and policies, all sequences of calls, both kinds of sequences, all orders of destruction", "why_tests_cant": "a statement about all patterns and all words; tests try a few of each", "anchors": ["include/mimic++/Sequence.hpp:BasicSequence", "include/mimic++/Sequence.hpp:LazyStrategy", "include/mimic++/Sequence.hpp:GreedyStrategy", "include/mimic++/ControlPolicy.hpp:ControlPolicy", "include/mimic++/Expectation.hpp:ExpectationCollection::handle_call"]}
{"id": "C76", "title": "Asking for fewer calls", "statement": "Lowering lower limits of expectations that belong to no sequence changes nothing of what a test reports, except that fewer expectations are reported as unfulfilled; so a test that passes still passes, whatever else it does. The same holds for a test whose expectations are all in one lazy sequence: after lower limits are lowered, it still passes for the same calls. It does not hold in general: a test with a greedy sequence, or with expectations inside and outside of a lazy sequence, can fail because it asks for less.", "quantifier": "all tests with any operations, all limits that are lowered, all calls", "why_tests_cant": "relates two tests for every test and every choice of limits", "anchors": ["include/mimic++/ControlPolicy.hpp:ControlPolicy", "include/mimic++/Sequence.hpp:LazyStrategy", "include/mimic++/Sequence.hpp:GreedyStrategy", "include/mimic++/Expectation.hpp:ExpectationCollection::remove", "include/mimic++/ControlPolicy.hpp:at_least"]}
{"id": "C77", "title": "Exact counts add up", "statement": "Two expectations that are created one right after the other, for the same mock, with the same policies and in the same sequences, with the exact counts a and b, do the same as one expectation with the count a + b, if they also end one right after the other: every call is resolved by one of the two exactly when it is resolved by the single one, all other calls, expectations and sequences behave the same, and one of the two is reported as unfulfilled exactly when the single one is. So one test passes exactly when the other does. It does not hold for ranges of counts, nor if something is created between the two.", "quantifier": "all tests with any operations before, between creation and end, and after; all counts, policies and sequences of both kinds", "why_tests_cant": "relates two tests for every test in which the two expectations can stand", "anchors": ["include/mimic++/ControlPolicy.hpp:ControlPolicy", "include/mimic++/ControlPolicy.hpp:times", "include/mimic++/Sequence.hpp:BasicSequence", "include/mimic++/Expectation.hpp:ExpectationCollection::handle_call", "include/mimic++/Expectation.hpp:ExpectationCollection::remove"]}
{"id": "C78", "title": "The kind of a sequence only matters for calls that fit several expectations", "statement": "If no call of a test could have been resolved by more than one expectation, all lazy sequences can be replaced by greedy ones and the other way round: the same operations succeed, the same expectations resolve the same calls, and the same reports are made. In particular this is so if all expectations are in one sequence and have exact counts, or if no call fits the policies of two expectations of the same mock. If a call fits two, the kind can decide which one resolves it.", "quantifier": "all histories without ambiguous calls, all assignments of kinds to the sequences", "why_tests_cant": "relates two tests for every test with unambiguous calls", "anchors": ["include/mimic++/Sequence.hpp:LazyStrategy", "include/mimic++/Sequence.hpp:GreedyStrategy", "include/mimic++/Sequence.hpp:BasicSequence", "include/mimic++/Expectation.hpp:detail::pick_best_match"]}
{"id": "C79", "title": "The order in which things end does not matter", "statement": "If several expectations and sequences end one right after the other, as at the end of a scope, they may do so in any order: sequences before the expectations attached to them, between them or after them. The same reports are made, possibly in another order - one per expectation, and one for each sequence, when its last owner ends - and everything before and afterwards is the same.", "quantifier": "all tests, all blocks of consecutive ends at any place in them, all permutations of the block", "why_tests_cant": "ranges over all tests and all orders of destruction; a test fixes one order", "anchors": ["include/mimic++/Expectation.hpp:ScopedExpectation", "include/mimic++/Expectation.hpp:ExpectationCollection::remove", "include/mimic++/Sequence.hpp:BasicSequence::~BasicSequence", "include/mimic++/Sequence.hpp:BasicSequenceInterface", "include/mimic++/ControlPolicy.hpp:ControlPolicy"]}
{"id": "C80", "title": "Forbidding a call does not veto it", "statement": "An expectation with never() (upper limit 0), whatever sequences it belongs to, never decides the outcome of a call: in every test, leaving it out changes nothing about which calls are resolved and by which expectations, nor about which of the other expectations and which sequences are reported as unfulfilled. So a call that is forbidden by one expectation and allowed by another one, older or younger, is resolved without a report. A forbidding expectation only changes the wording of the reports about calls that are not resolved anyway (an inapplicable match instead of no match), the positions stated for unfulfilled sequences, and the time at which sequences end.", "quantifier": "all tests with any number of mocks, sequences of both kinds, expectations and calls, and all forbidding expectations in them", "why_tests_cant": "a comparison of every test with the test that lacks one of its expectations", "anchors": ["include/mimic++/ControlPolicy.hpp:never", "include/mimic++/ControlPolicy.hpp:ControlPolicy", "include/mimic++/Expectation.hpp:ExpectationCollection::handle_call", "include/mimic++/Sequence.hpp:BasicSequence"]}
{"id": "C81", "title": "Where exceptions of the client's classes end up", "statement": "Making a requirement, finalizer or side effect from an object of the client never terminates the program: an exception of its copy or move constructor comes out of the function that makes the policy. Likewise an exception of a function given to a finalizer, of the conversion of its result to the return type, or of the copy of an exception to be thrown, reaches the caller of the mock, and an exception of a matcher's predicate leaves the matcher. Only exceptions of side effects terminate the program, and they always do.", "quantifier": "all classes of the client, with any combination of constructors and call operators that do or do not promise (noexcept) not to throw and do or do not throw, and all ways of passing objects (lvalues, rvalues, const or not)", "why_tests_cant": "all combinations of noexcept specifications, overloads of call operators and value categories", "anchors": ["include/mimic++/ExpectationPolicies.hpp:ReturnsResultOf", "include/mimic++/ExpectationPolicies.hpp:SideEffectAction", "include/mimic++/ExpectationPolicies.hpp:Requirement", "include/mimic++/ExpectationPolicies.hpp:returns_result_of", "include/mimic++/ExpectationPolicies.hpp:invoke", "include/mimic++/Matcher.hpp:PredicateMatcher::matches", "include/mimic++/Expectation.hpp:BasicExpectation::consume"]}
{"id": "C82", "title": "Declarations may be moved", "statement": "An expectation may be declared earlier in a test, before operations that do not concern it (calls of other mocks, calls that one of its requirements rejects, ends, new mocks and sequences), provided everything it refers to exists there already: all calls are resolved by the same expectations, and all reports are the same, except that the expectation is listed in reports about calls of its mock that match nothing. Two expectations that are declared one right after the other may be declared in the other order, if no call can be meant for both and they have no sequence in common. The test passes iff it did before.", "quantifier": "all tests, all places in them, all expectations, including those in other sequences and with requirements that throw", "why_tests_cant": "compares every test with every other arrangement of it", "anchors": ["include/mimic++/Expectation.hpp:ExpectationCollection::push", "include/mimic++/Expectation.hpp:ExpectationCollection::handle_call", "include/mimic++/Sequence.hpp:BasicSequence::add", "include/mimic++/Expectation.hpp:detail::pick_best_match"]}
{"id": "C83", "title": "Which reporter is in force, and for how long", "statement": "Every report is made to exactly one reporter: the one installed last, or, if none was installed, a default reporter that is made when it is first needed. A reporter gets reports only while it is in force and before its destruction begins; it is destroyed exactly once, and before the end of the program only after its successor is in force. If the constructor of a new reporter throws, nothing is destroyed and the old reporter stays in force. When the program ends, every reporter is destroyed, and objects with static storage duration of the client can report until then.", "quantifier": "all programs of one thread that report, install reporters (whose constructors and destructors may report or throw) and initialise objects with static storage duration whose destructors report, in any order", "why_tests_cant": "the reporter is global, so that tests within one process cannot observe its first use or its destruction; the order of initialisation is arbitrary", "anchors": ["include/mimic++/Reporter.hpp:detail::get_reporter", "include/mimic++/Reporter.hpp:install_reporter", "include/mimic++/Reporter.hpp:detail::ReporterInstaller", "include/mimic++/adapters/Catch2.hpp"]}
{"id": "C84", "title": "Mocks have no memory", "statement": "A mock all of whose expectations have ended is like new, whatever happened before (calls that matched nothing, unfulfilled expectations, sequences that are still in use elsewhere): a part of a test that uses such mocks, and otherwise only expectations and sequences of its own, observes exactly what it observes with new mocks. Hence sections of a test that end the expectations they declared can share mocks, and can be carried out in any order and any number of times, each with the same outcome.", "quantifier": "all histories before, all sets of mocks, all programs of the sections, all orders and repetitions", "why_tests_cant": "a test covers one past and one order of sections; the claim is about all of them", "anchors": ["include/mimic++/Expectation.hpp:ExpectationCollection::remove", "include/mimic++/Expectation.hpp:ExpectationCollection::push", "include/mimic++/Expectation.hpp:ExpectationCollection::handle_call"]}
{"id": "C85", "title": "The reporter and several threads", "statement": "The default reporter is made at most once, even if several threads need it for the first time at the same moment, and threads that only report never race for the pointer to the reporter. Every report goes to the reporter that was in force when the report began. Installing a reporter is not synchronised by the library: if the client orders each installation as a whole before or after every report and every other installation of other threads (for instance by installing before the other threads are started), there is no data race, the reporter that gets a report is still in force, and no reporter is used after its destruction; if it does not, an installation races with the reports and may destroy a reporter that is in use. No reporter is ever destroyed twice.", "quantifier": "all numbers of threads, all schedules of their reports, installations and the client's synchronisation", "why_tests_cant": "a test runs one schedule at a time, and a data race is a property of what the schedules allow, not of one observed outcome", "anchors": ["include/mimic++/Reporter.hpp:get_reporter", "include/mimic++/Reporter.hpp:install_reporter", "include/mimic++/Reporter.hpp:report_full_match"]}
{"id": "C86", "title": "Sequences can be used again", "statement": "A sequence has no memory of expectations that were fulfilled and have ended. If every expectation attached to some sequences so far has ended after enough calls, a part of a test observes the same with any of these sequences (or with new ones) of the same kind: all calls have the same outcomes and the same expectations are reported; only the names of the sequences differ, and the two numbers in the error about an unfulfilled sequence count what was attached before, too. If an attached expectation ended after too few calls, though, nothing attached to that sequence later can ever resolve a call.", "quantifier": "all histories, all sets of sequences with nothing left to do and all ways of exchanging them, all further programs that leave room for the expectations they attach", "why_tests_cant": "a test uses a sequence once or twice in one arrangement; that no trace of earlier use remains concerns every earlier history and every later program", "anchors": ["include/mimic++/Sequence.hpp:BasicSequence", "include/mimic++/Sequence.hpp:BasicSequence::add", "include/mimic++/Sequence.hpp:BasicSequence::is_consumable", "include/mimic++/Sequence.hpp:GreedyStrategy", "include/mimic++/Sequence.hpp:LazyStrategy"]}
{"id": "C87", "title": "Sequences only forbid", "statement": "Attaching expectations to sequences only restricts a test. If every call of a test was resolved and none of them fitted two expectations in force, then the same test with its expectations attached to fewer sequences (or to none) goes the same way: the same expectations resolve the same calls, and the same expectations are reported at their ends. Where calls fit several expectations this is wrong: a sequence may decide which of them takes a call, and a test that passes may fail without it.", "quantifier": "all tests, all sets of sequences left out", "why_tests_cant": "it compares every test with every version of it that has fewer sequences", "anchors": ["include/mimic++/Sequence.hpp:expect::in_sequence", "include/mimic++/ControlPolicy.hpp:ControlPolicy::state", "include/mimic++/Expectation.hpp:ExpectationCollection::handle_call"]}
{"id": "C88", "title": "A test asks for numbers of calls and for orders, and for nothing else", "statement": "Take a test with any sequences and any expectations, each in any of the sequences, that makes some calls and then ends. If it passes, its calls can be distributed over the expectations so that each call fits its expectation, each expectation gets as many calls as its limits allow, and in each sequence the calls come in the order in which the expectations were declared. If no call fits two expectations, the converse holds as well, so the test passes exactly then; this also holds when expectations are declared and end between the calls, for example in nested scopes. Hence neighbouring calls can be exchanged if they do not belong to different expectations with a sequence in common. If calls fit several expectations, the converse is wrong.", "quantifier": "all numbers and kinds of sequences, all expectations, all lists of calls, all orders in which things end; the converse for all histories", "why_tests_cant": "it characterises all lists of calls that any test accepts", "anchors": ["include/mimic++/Sequence.hpp:expect::in_sequences", "include/mimic++/ControlPolicy.hpp:ControlPolicy::state", "include/mimic++/Expectation.hpp:ExpectationCollection::handle_call", "include/mimic++/Expectation.hpp:ScopedExpectation"]}
{"id": "C89", "title": "Comparing calls and reports", "statement": "Reporters of the user's own get reports about calls, expectations and matches, which they may keep and compare. Two reports compare equal iff all they contain is equal, where source locations count as the file, function, line and column they denote, not as the memory these names lie in; so comparing is an equivalence relation, and equal reports have the same text and denote the same outcome. Two calls compare equal iff they come from the same place, with the same value category and constness, and with the same objects as arguments; if these objects are unchanged, the reports about such calls are equal. The reports about two calls are equal iff place, value category and constness are the same and the arguments were printed alike, each at its time. The text of a place tells line, column and function, once the file is known. Nothing more can be concluded: different objects of equal value make different calls with equal reports, an object that was changed makes equal calls with different reports, and different reports may have the same text.", "quantifier": "all calls with any number of arguments, all reports, all contents of memory", "why_tests_cant": "equivalence and congruence quantify over all pairs and triples of reports", "anchors": ["include/mimic++/Call.hpp:call::Info", "include/mimic++/Utility.hpp:is_same_source_location", "include/mimic++/Reports.hpp:CallReport", "include/mimic++/Reports.hpp:ExpectationReport", "include/mimic++/Reports.hpp:MatchReport", "include/mimic++/Reports.hpp:make_call_report"]}
{"id": "C90", "title": "Running out of memory", "statement": "Wherever in an operation an allocation fails, nothing undefined happens: the operation ends as usual, or std::bad_alloc comes out, or the program terminates. A call from which std::bad_alloc comes out has not been counted, and changes nothing. A call that ends as usual is answered according to the rules applied to those expectations that could be asked; those for which memory ran out are reported like ones that threw. So no shortage of memory makes an expectation resolve a call it does not accept, or more calls than its limit allows, and an unexpected call never returns as if it had been expected; but a call may go to another expectation than it would otherwise. The program terminates iff it gets to a point where such a report or the report of a match is made and memory runs out there, or if memory runs out while an expectation is attached to a sequence or its handle is made, or while the end of a sequence is reported. If the expectation object cannot be made, std::bad_alloc comes out and the sequences it asked for are left as after the failed creations of C55. The end of an expectation with too few calls is reported, or std::bad_alloc comes out, and it is gone in any case.", "quantifier": "all histories, all points at which the allocations of each operation may fail, in any combination", "why_tests_cant": "crash points: every combination of failing allocations in every operation of every history", "anchors": ["include/mimic++/Expectation.hpp:make_match_report", "include/mimic++/Expectation.hpp:ExpectationCollection::handle_call", "include/mimic++/Expectation.hpp:ExpectationCollection::remove", "include/mimic++/Expectation.hpp:ScopedExpectation", "include/mimic++/ExpectationBuilder.hpp:BasicExpectationBuilder::finalize", "include/mimic++/Reporter.hpp:report_full_match", "include/mimic++/Sequence.hpp:BasicSequence"]}
{"id": "C91", "title": "Nothing but the answers of the matchers counts", "statement": "Let two tests do the same, but with other mocks, other arguments and other requirements, so that each expectation says the same (yes, no, or an exception; no also if the call goes to another mock) about corresponding calls, and its requirements say the same about its end. Then one runs iff the other does, and both report the same: exactly, if the mocks are the same, and otherwise except for the creation of mocks and the lists of expectations in reports of calls that match nothing. So one passes iff the other does. In particular arguments may be replaced by what the matchers look at, several requirements of an expectation by their conjunction, their order and repetitions are irrelevant, and several mocks may be replaced by one that is told which of them is meant.", "quantifier": "all pairs of tests that correspond in this way: all numbers of mocks, expectations, sequences and calls, all argument types and all requirements", "why_tests_cant": "relates two arbitrary programs, for all types of arguments and all matchers", "anchors": ["include/mimic++/Expectation.hpp:BasicExpectation::matches", "include/mimic++/Expectation.hpp:ExpectationCollection::handle_call", "include/mimic++/ExpectationPolicies.hpp:ArgumentMatcher", "include/mimic++/Mock.hpp:Mock"]}
{"id": "C92", "title": "When an expectation ends", "statement": "An expectation that cannot resolve any of the calls in between - because it has resolved as many as it may, or because its requirements do not accept them - may end before them or after them: the rest of the test runs in one case iff it runs in the other, the same is reported (possibly in another order, and apart from that expectation being asked about, throwing at or listed with the calls in between), all calls end in the same way, and the test passes in one case iff it passes in the other. An expectation that could resolve a call in between must not end earlier.", "quantifier": "all histories, all expectations alive in them, all operations in between and afterwards", "why_tests_cant": "for every history, every position of the end and every continuation", "anchors": ["include/mimic++/Expectation.hpp:ScopedExpectation", "include/mimic++/Expectation.hpp:ExpectationCollection::remove", "include/mimic++/Expectation.hpp:ExpectationCollection::handle_call", "include/mimic++/Sequence.hpp:BasicSequence"]}
{"id": "C93", "title": "A mutex for each group of objects that belong together", "statement": "Let the mocks, sequences and expectations of a program be divided into groups, each expectation being in the group of its mock and of its sequences, and let there be a mutex for each group that a thread holds during all operations on objects of that group. Then, whatever the threads do and however they are scheduled, what is seen in each group is what a single thread would see that carried out the operations of this group in the order in which they were begun. Nothing goes wrong that would not go wrong in one of the groups on its own in a single thread. If two threads access the same memory and one of them writes, both accesses belong to the same group, and in between the first thread unlocks the mutex and the second one locks it: there are no data races. No lock for the whole library is needed.", "quantifier": "all numbers of threads, groups and objects, all operations, all schedules, also with interruptions in the middle of operations", "why_tests_cant": "a test observes one schedule; data races need not show at all", "anchors": ["include/mimic++/Expectation.hpp:ExpectationCollection", "include/mimic++/Expectation.hpp:BasicExpectation", "include/mimic++/Sequence.hpp:BasicSequence", "include/mimic++/Mock.hpp:Mock"]}
{"id": "C94", "title": "Tests do not run into dead ends", "statement": "Wherever a test has got to, it can still be brought to an end without a failure by making further calls iff nothing has failed so far and each expectation that still lacks calls accepts some call at all. Neither the calls made so far, nor sequences (of any kind, in any combination), nor other expectations competing for the same calls can make this impossible. After these calls, expectations and sequences may end in any order. At least as many calls are needed as the expectations lack together, whatever else is done; exactly as many suffice if each of these expectations has a call of its own, and more may be needed otherwise.", "quantifier": "all histories of any number of mocks, sequences, expectations and calls; all ways of going on", "why_tests_cant": "a statement about the existence of a continuation after every history, and about all continuations", "anchors": ["include/mimic++/Sequence.hpp:BasicSequence", "include/mimic++/ExpectationPolicies.hpp:Times", "include/mimic++/Expectation.hpp:ExpectationCollection::handle_call", "include/mimic++/Expectation.hpp:ExpectationCollection::remove"]}
{"id": "C95", "title": "Only numbers of calls are remembered", "statement": "If in two histories the same expectations were declared (on the same mocks, with the same limits, sequences and requirements), the same of them are still in force, each has resolved equally many calls, and the same mocks and sequences exist, then from there on exactly the same can happen, with the same observations, including failures. When, in which order and with which arguments the calls were made has no influence, nor which calls failed. In particular, calls that no expectation resolves might as well not have been made.", "quantifier": "all pairs of histories leading to the same situation, all continuations and all programs", "why_tests_cant": "compares all pairs of histories and all their continuations", "anchors": ["include/mimic++/Expectation.hpp:ExpectationCollection::handle_call", "include/mimic++/Expectation.hpp:BasicExpectation", "include/mimic++/Sequence.hpp:BasicSequence", "include/mimic++/ExpectationPolicies.hpp:Times"]}
{"id": "C96", "title": "Asking for less keeps a test passing", "statement": "If a test passes, then it also passes with expectations that ask for less: with lower lower limits, higher upper limits, fewer sequences, and requirements that accept at least what they accepted before. The test is still possible, nothing is rejected, and each call is resolved by the same expectation as before. This needs that, in the new test, no call fits two expectations in force: otherwise asking for less can make a passing test fail, since an expectation may take a call another one lacks.", "quantifier": "all tests (programs of any number of mocks, sequences, expectations, calls and ends in any order), all ways of asking for less in any number of expectations", "why_tests_cant": "compares all pairs of programs", "anchors": ["include/mimic++/Expectation.hpp:ExpectationCollection::handle_call", "include/mimic++/Sequence.hpp:BasicSequence", "include/mimic++/ExpectationPolicies.hpp:Times", "include/mimic++/ExpectationBuilder.hpp:BasicExpectationBuilder"]}
{"id": "C97", "title": "times(n) is n times once", "statement": "An expectation for exactly n1 + n2 + ... calls can be replaced by expectations for exactly n1, n2, ... calls that are created one right after the other and end together (same mock, same requirements, same sequences), for example times(3) by three times once(), and the other way round: the test is possible in one case exactly if it is in the other (up to the number of expectations a sequence can take), it passes in one case exactly if it passes in the other, and all calls have the same outcome (resolved by this expectation, respectively by one of the parts; resolved by the same other expectation; nothing applicable; no match), whatever other expectations and sequences there are. For ranges of numbers this is not so: one for 1 or 2 calls differs from one for exactly 1 followed by one for at most 1.", "quantifier": "all tests, all places in them, all lists of numbers, all requirements and sequences", "why_tests_cant": "compares all pairs of programs", "anchors": ["include/mimic++/ExpectationPolicies.hpp:Times", "include/mimic++/Expectation.hpp:ExpectationCollection::handle_call", "include/mimic++/Sequence.hpp:BasicSequence", "include/mimic++/ControlPolicy.hpp:ControlPolicy"]}
{"id": "C98", "title": "Arguments may be mocks that are used when they are printed", "statement": "Every call prints its arguments, once for the report about the call and once for each expectation whose matcher throws. Printing may itself call mocks, for example the name() of an argument that is a mocked object; these calls happen, are counted and reported like all others, before the call whose arguments are printed, and every call ends as if all calls had been made one after the other in the order in which they end. So printing is not without effect on a test: a mock may be called more often than the test does. Violated: if printing calls the mock whose arguments are printed, the expectation chosen for the call may be used up meanwhile, and an assertion of the library fails; the same if a sequence connects the mocks involved; if a matcher threw, a std::mutex is locked twice; and printing may go on for ever. It holds if printing only calls mocks of lower layers and sequences do not connect layers: then nothing undefined happens and every call returns.", "quantifier": "all programs whose printers are programs that call mocks, depending on the answers, nested to any depth; all histories", "why_tests_cant": "nesting and programs are unbounded; what goes wrong is undefined behaviour or never returns", "anchors": ["include/mimic++/Expectation.hpp:ExpectationCollection::handle_call", "include/mimic++/Expectation.hpp:make_match_report", "include/mimic++/Reports.hpp:make_call_report", "include/mimic++/Printer.hpp:print", "include/mimic++/ControlPolicy.hpp:ControlPolicy::consume"]}
{"id": "C99", "title": "Tests see the mock, the limits, the sequences and the answers of the requirements, and nothing else", "statement": "Two declarations of expectations can replace each other in every test - whatever comes before and after, the test runs with one just if it runs with the other, and the same is reported apart from the order of what ends together - exactly if they belong to the same mock, name the same sequences in any order, have the same limits, and their requirements say the same about every call. Whoever writes two declarations that differ in one of these can write a test that tells them apart, and nothing else about a declaration can be noticed. The only exception: if the requirements accept no call at all, then it does not matter how many calls are demanded or allowed, only whether any is demanded. It suffices that one can replace the other.", "quantifier": "all pairs of accepted declarations, all programs around them", "why_tests_cant": "that no test sees a difference ranges over all tests", "anchors": ["include/mimic++/Expectation.hpp:ExpectationCollection::handle_call", "include/mimic++/Expectation.hpp:BasicExpectation", "include/mimic++/ControlPolicy.hpp:ControlPolicy", "include/mimic++/Sequence.hpp:BasicSequence"]}
{"id": "C100", "title": "Special expectations after general ones: the library finds a way to resolve all calls if there is one", "statement": "Among the expectations that accept a call, the library uses the youngest that has not yet had all its calls, without knowing which calls follow. If every expectation that shares calls with an older one accepts only calls that the older one accepts too (first the general, then the special), and no sequences are involved, then nothing is lost by this: all calls of a test are resolved exactly if it is possible at all to distribute them among the expectations so that every call is accepted and no upper limit is exceeded. The order in which the calls are made does not matter. If in addition each special expectation wants an exact number of calls, then the test passes exactly if the calls can be distributed so that every expectation gets enough and none gets too many, and how often each expectation is used is the same for all such distributions. Both conditions are needed: with the general expectation declared last, or with a special expectation that does not insist on its calls, a test can fail although a suitable distribution exists.", "quantifier": "all reachable situations without sequences in which overlapping expectations are declared from general to special, all lists of calls, all distributions of them", "why_tests_cant": "ranges over all calls, all sets of expectations and all ways in which the calls could have been distributed", "anchors": ["include/mimic++/Expectation.hpp:ExpectationCollection::handle_call", "include/mimic++/Expectation.hpp:BasicExpectation", "include/mimic++/ControlPolicy.hpp:ControlPolicy"]}
{"id": "C101", "title": "When a sequence finds a way whenever there is one", "statement": "A sequence decides for each call at once which expectation gets it (C75). For tests with one sequence, exactly the following sets of expectations make every test pass whose calls are a word of the regular expression the expectations spell. Lazy sequences: no expectation that has a choice (its lower limit is below its upper limit) shares calls with the next expectation after it that insists on calls. Greedy sequences: no expectation that has a choice shares calls with any expectation that may follow it, that is, any one up to and including the next one that insists on calls. So if a greedy sequence always finds a way, then a lazy one does too, but not conversely. With exact numbers of calls both kinds always find a way, and a lazy sequence always does if no calls are demanded.", "quantifier": "all lists of expectations that accept some call, with all limits and policies; all calls; both kinds of sequences; all orders of destruction", "why_tests_cant": "says of each set of expectations what happens for all of its infinitely many words, and that there is a word that is rejected if the condition is not met", "anchors": ["include/mimic++/Sequence.hpp:LazyStrategy", "include/mimic++/Sequence.hpp:GreedyStrategy", "include/mimic++/Sequence.hpp:BasicSequence", "include/mimic++/Expectation.hpp:ExpectationCollection::handle_call", "include/mimic++/ControlPolicy.hpp:ControlPolicy"]}
{"id": "C102", "title": "The order of declarations matters only between expectations that share a sequence or a call", "statement": "Expectations that name no common sequence and that no call fits both can be declared in any order. If a test runs with such declarations in one order, then it runs with them in every other order, and the rest of the test reports the same about the same expectations: the same calls are resolved by the same expectations, the same expectations stay unfulfilled and the same exceptions are thrown. Only the order in which a report lists the expectations that do not match, and the order in which exceptions of requirements during one call are reported, may be another. In particular the test passes with both orders or with none. Both conditions are needed: with a common sequence, or with a call that fits both expectations, there are tests that pass with one order only.", "quantifier": "all tests, all lists of accepted declarations in them that have pairwise no sequence and no call in common, all rearrangements of the list", "why_tests_cant": "ranges over all tests around the declarations and all rearrangements", "anchors": ["include/mimic++/Expectation.hpp:ExpectationCollection::push", "include/mimic++/Expectation.hpp:ExpectationCollection::handle_call", "include/mimic++/Sequence.hpp:BasicSequence::add", "include/mimic++/ControlPolicy.hpp:ControlPolicy"]}
{"id": "C103", "title": "Where objects are in memory does not matter", "statement": "The library tells sequences, and expectations, from each other by their addresses. As long as no two sequences that exist at the same time, and no two expectations that exist at the same time, have the same address, a test behaves the same wherever these objects are, and also if an object gets the address of one that no longer exists: the same expectations are accepted and rejected, the same calls are resolved by the same expectations, and no assertion about addresses fails.", "quantifier": "all programs, all assignments of addresses to their sequences and expectations by an allocator that does not give away memory that is in use", "why_tests_cant": "ranges over all placements of objects, of which a test run shows one; whether addresses are used again depends on the allocator", "anchors": ["include/mimic++/Sequence.hpp:BasicSequence::tag", "include/mimic++/Sequence.hpp:Config", "include/mimic++/Sequence.hpp:has_better_rating", "include/mimic++/Expectation.hpp:ExpectationCollection::push", "include/mimic++/Expectation.hpp:ExpectationCollection::remove"]}
{"id": "C104", "title": "Reporters may use mocks", "statement": "A custom reporter may call mocks when it receives a report, for example those of a mocked logger, while printers of arguments, side effects and finalizers call mocks, too; these calls happen, are counted and reported like all others, when the report is emitted, and everything ends as if all calls had been made one after the other. This concerns the reports about calls, about exceptions of matchers, about unfulfilled expectations and about faulty sequences. Violated: if the reporter calls the mock that a report about a resolved call is about, the expectation chosen for the call may be used up meanwhile, and an assertion of the library fails; the same if a sequence connects the mocks involved; if it calls the mock that a report about an unfulfilled expectation or an exception is about, a std::mutex is locked twice; and a reporter that logs the calls of its logger never ends. It holds if the reporter and the printers only call mocks of lower layers than that which a report is about, side effects and finalizers call no mocks of higher layers, and sequences do not connect layers: then nothing undefined happens, and every operation ends if side effects keep to lower layers, too. Side effects and finalizers alone may call whatever they like.", "quantifier": "all programs, all reporters, printers, side effects and finalizers that are programs which call mocks, depending on the report and on the answers, nested to any depth; all histories", "why_tests_cant": "nesting, programs and reporters are unbounded; what goes wrong is undefined behaviour or never returns", "anchors": ["include/mimic++/Expectation.hpp:ExpectationCollection::handle_call", "include/mimic++/Expectation.hpp:ExpectationCollection::remove", "include/mimic++/Expectation.hpp:make_match_report", "include/mimic++/Sequence.hpp:BasicSequence::~BasicSequence", "include/mimic++/Reporter.hpp:IReporter", "include/mimic++/Expectation.hpp:BasicExpectation::consume"]}
{"id": "C105", "title": "The rules determine everything that is observed", "statement": "For every operation of the client - creating mocks, sequences and expectations, calling mocks, ending expectations and sequences - the documented rules say exactly which reports follow, in which order and with which contents, and they refer only to what has been observed before: which expectations were declared with which limits, sequences and requirements, how many calls each has resolved, and what has ended. The library always follows these rules, the rules contradict each other nowhere and leave nothing open: a history is possible exactly if every step keeps the rules, the same operations always lead to the same observations, and any other implementation that keeps the rules cannot be told from this one.", "quantifier": "all histories of valid operations, all operations, all lists of observations, all other implementations with any states", "why_tests_cant": "a list of rules that is complete can only be shown to be complete for all histories", "anchors": ["include/mimic++/Expectation.hpp:ExpectationCollection", "include/mimic++/Expectation.hpp:BasicExpectation", "include/mimic++/Sequence.hpp:BasicSequence", "include/mimic++/ControlPolicy.hpp:ControlPolicy"]}
{"id": "C106", "title": "Threads whose client code uses mocks never wait for each other for ever", "statement": "All code that a test gives to the library - matchers, printers of arguments, the reporter, side effects, finalizers and the destructors of what an expectation holds - may call mocks, create and end expectations and end sequences, in any number of threads; no thread ever waits for itself, and as long as not all threads are done, one of them can go on. Violated: two threads that end unfulfilled expectations of two mocks may wait for each other for ever if the reporter calls the respective other mock, and a reporter that calls the mock whose expectation is unfulfilled locks a std::mutex twice. It holds if the code that runs while a mock's mutex is held (matchers; printers of arguments and the reporter after a matcher has thrown; the reporter of an unfulfilled expectation) only uses mocks and sequences of lower layers than that mock's, and the other code uses none of higher layers; if the other code keeps to lower layers, too, every schedule comes to an end with all threads done. If the code under a mutex uses no mocks at all, nothing is required of the other code. In all programs the code that runs under the mutex of a mock is run by one thread at a time; side effects, finalizers and reporters of the outcome of calls may be run by several threads at once.", "quantifier": "all client code of these kinds, all numbers of threads, all schedules, all numbers of mocks and sequences, all depths of nesting", "why_tests_cant": "schedules: a deadlock may need one particular interleaving", "anchors": ["include/mimic++/Expectation.hpp:ExpectationCollection::push", "include/mimic++/Expectation.hpp:ExpectationCollection::remove", "include/mimic++/Expectation.hpp:ExpectationCollection::handle_call", "include/mimic++/Expectation.hpp:make_match_report", "include/mimic++/Expectation.hpp:ScopedExpectation", "include/mimic++/Sequence.hpp:BasicSequence"]}
{"id": "C107", "title": "Expectations and control policies of the user's own are treated by the same rules", "statement": "A collection of expectations may be given any implementation of the interface Expectation, in particular expectations with control policies of the user's own, which may share state with each other and with the rest of the program. On every call all that were added and not removed are asked, the last one first; those that throw are reported. If some accept the call and it is their turn, then exactly one of them is reported, told to note the call and asked for its result: the youngest, unless it gives way to an older one that has ratings for all its sequences with more than half of its own ratings lower (and so on from there); nobody else is told anything. If consume throws, the result is not asked for. Otherwise all that accept the call, or else all that did not throw, are listed in the report of the failure. An expectation that is removed is reported as unfulfilled exactly if it says so. A control policy is told about exactly the calls its expectation was reported to take, once each. The only way for a call to go wrong is an expectation that throws when asked and again when described: while a control policy whose state() throws is a member, every call of the mock terminates the program. The expectations of the library are a special case.", "quantifier": "all implementations of the interface and of control policies, all states they may share, all changes the rest of the program makes to it between operations, all histories of adding, removing and calling", "why_tests_cant": "all possible user-written classes and histories", "anchors": ["include/mimic++/Expectation.hpp:ExpectationCollection::push", "include/mimic++/Expectation.hpp:ExpectationCollection::remove", "include/mimic++/Expectation.hpp:ExpectationCollection::handle_call", "include/mimic++/Expectation.hpp:Expectation", "include/mimic++/Expectation.hpp:control_policy", "include/mimic++/Expectation.hpp:BasicExpectation", "include/mimic++/Expectation.hpp:pick_best_match", "include/mimic++/Expectation.hpp:make_match_report", "include/mimic++/Sequence.hpp:has_better_rating"]}
{"id": "C108", "title": "When a sequence adds nothing", "statement": "A sequence in which every two expectations belong to another sequence together, too, demands no order of its own; in particular one that only repeats another sequence, or a part of it, and one with a single expectation. The same expectations can resolve a call with and without it, and the same test without it is intended to behave alike: all calls are resolved by the same expectations or fail in the same way, all expectations are satisfied or reported alike, and the other sequences report the same; only what is reported about that sequence itself is missing. In general this does not hold: a lazy sequence for a part of the expectations of another lazy sequence keeps the others from being preferred, and two lazy sequences with the same expectations outvote a greedy one. It holds if all sequences of the test are greedy, or if two sequences have the same expectations and none of these belongs to lazy as well as to greedy sequences, or if its only expectation belongs to no other sequence. It is not enough that neighbours in the sequence belong to other sequences together. For all sequences whatsoever, a test can do without one if and only if every call that is resolved is resolved by the expectation that the rule of preference would choose without that sequence, and every other call could not be resolved without it either.", "quantifier": "all histories of operations on mocks, expectations and sequences, all sequences in them (as long as no declaration names that sequence twice, which is rejected)", "why_tests_cant": "relates two programs, for all histories", "anchors": ["include/mimic++/Sequence.hpp:BasicSequence", "include/mimic++/Sequence.hpp:LazyStrategy", "include/mimic++/Sequence.hpp:GreedyStrategy", "include/mimic++/Sequence.hpp:has_better_rating", "include/mimic++/Sequence.hpp:expect::in_sequences", "include/mimic++/Expectation.hpp:pick_best_match"]}
{"id": "C109", "title": "Which numbers of calls make a difference", "statement": "Of the number of calls an expectation has resolved, only three things have an influence on what is observed next, on all mocks and sequences: whether it is zero, whether it is below the lower limit, and whether it is below the upper limit. So how often an expectation has been used that has all the calls it asks for makes no difference, as long as it does not get to its upper limit: a call that is resolved by an expectation that has been used before and has all the calls it asks for can be left out of a test or repeated any number of times, and everything else happens as before. None of these conditions can be dropped: the first call of an expectation ends the turn of older ones in its sequences, the calls that are asked for make it the turn of younger ones, and the last call it can take leaves later ones to other expectations.", "quantifier": "all pairs of histories leading to such situations, all next operations and continuations, all calls and all numbers of repetitions", "why_tests_cant": "relates programs to each other, for all histories and all numbers of calls", "anchors": ["include/mimic++/Sequence.hpp:BasicSequence::is_consumable", "include/mimic++/Sequence.hpp:BasicSequence::consume", "include/mimic++/Sequence.hpp:BasicSequence::set_satisfied", "include/mimic++/Sequence.hpp:BasicSequence::set_saturated", "include/mimic++/ControlPolicy.hpp:ControlPolicy", "include/mimic++/ControlPolicy.hpp:expect::at_least"]}
{"id": "C110", "title": "All rules for watched objects together", "statement": "For clients that create, copy, move, assign and destroy objects with lifetime or relocation watchers, and expect their ends and relocations, what is observed is determined completely by rules that speak only about the history so far: what kind of object it is, whether it has been destroyed, which watch it carries, whether its end has been expected already, and (for the reports themselves and everything else) the rules of C105. The rules say for each operation exactly when it is allowed, what is reported to which expectation, when an exception leaves it, and which new objects and watches there are; they say nothing about the use of objects that carry no watch, where the library has undefined behaviour. Exactly the histories that keep the rules can happen, the same operations always have the same effects, and any other library that keeps the rules cannot be told from this one.", "quantifier": "all histories of clients with watched objects, all operations, all expectations (throwing or not), and all other implementations", "why_tests_cant": "a statement about all histories and all implementations: that the rules leave nothing open and nothing out", "anchors": ["include/mimic++/ObjectWatcher.hpp:LifetimeWatcher", "include/mimic++/ObjectWatcher.hpp:RelocationWatcher", "include/mimic++/ObjectWatcher.hpp:LifetimeWatcher::expect_destruct", "include/mimic++/ObjectWatcher.hpp:RelocationWatcher::expect_relocate"]}
{"id": "C111", "title": "All rules for watched objects of the client's own types together", "statement": "For objects of the client's own classes that are combined with any number of lifetime and relocation watchers in any order, what is observed is determined completely by rules that speak only about the history so far: the watchers are created, assigned and destroyed one by one in the order of the type (destroyed in reverse), each by the rules of C110; when one of them or the client's class throws while an object is made, the finished watchers are destroyed in reverse order and the exception reaches the client; when that happens in an assignment, the rest is not assigned; when one watcher throws in a destructor, the others are destroyed all the same. Exactly the histories that keep the rules can happen, the same operations always have the same effects, any other library that keeps the rules cannot be told from this one, and the program is terminated exactly where the rules say nothing: where the client's class promises not to throw, or a second exception would be thrown.", "quantifier": "all client classes (promising not to throw or not), all lists of watchers, all histories and operations, all expectations (throwing or not), and all other implementations", "why_tests_cant": "a statement about all types, histories and implementations: that the rules leave nothing open and nothing out", "anchors": ["include/mimic++/ObjectWatcher.hpp:Watched", "include/mimic++/ObjectWatcher.hpp:detail::CombinedWatchers", "include/mimic++/ObjectWatcher.hpp:LifetimeWatcher", "include/mimic++/ObjectWatcher.hpp:RelocationWatcher"]}
{"id": "C112", "title": "All rules for scoped expectations and reporters together", "statement": "For clients that hold their expectations by ScopedExpectation objects, with any reporter (also one that breaks the rules of the interface) and any number of exceptions on their way, everything is determined by rules that speak only about the history so far: which operations come to their end, which exception leaves them, what is reported, which objects come into being and what is_satisfied answers; which operations terminate the program; and which have undefined behaviour. Each operation on existing objects has exactly one of these fates. Exactly the histories that keep the rules can happen, the same operations under the same circumstances have the same effects, and any other library that keeps the rules cannot be told from this one. With a reporter that keeps the rules of the interface, nothing is undefined but asking an object that was moved from, and the program is terminated exactly where a sequence is full, where a sequence ends too early while no exception is on its way, and where an assignment ends an expectation that has to be reported.", "quantifier": "all histories of operations on mocks, sequences and scoped expectations, all reporters (another one for each operation), all numbers of uncaught exceptions, and all other implementations", "why_tests_cant": "a statement about all histories, reporters and implementations: that the rules leave nothing open and nothing out", "anchors": ["include/mimic++/Expectation.hpp:ScopedExpectation", "include/mimic++/Reporter.hpp:IReporter", "include/mimic++/Reporter.hpp:DefaultReporter", "include/mimic++/Reporter.hpp:detail::report_full_match", "include/mimic++/Reporter.hpp:detail::report_no_matches"]}
{"id": "C113", "title": "All rules for mocks with overloads together", "statement": "For clients that use mocks with any overloads, and move, assign and end them, everything is determined by rules that speak only about the history so far: what a client may do (which lists of signatures make a mock, which variables may be moved, assigned, ended, called or asked for expectations), what it observes (which expectation resolves a call through an overload, what a report about an unresolved call tells about, which matchers' exceptions are reported), where the program is terminated (a sequence that is full) and where the behaviour is undefined (an overload of a variable that was moved from). Exactly the histories that keep the rules can happen, the same operations make the same observations, and any other library that keeps the rules cannot be told from this one.", "quantifier": "all histories of operations on mock variables, overloads, sequences and expectations, all signatures, and all other implementations", "why_tests_cant": "a statement about all histories, signatures and implementations: that the rules leave nothing open and nothing out", "anchors": ["include/mimic++/Mock.hpp:Mock", "include/mimic++/Mock.hpp:BasicMockFrontend", "include/mimic++/Mock.hpp:MockFrontend", "include/mimic++/ExpectationPolicies.hpp:Category", "include/mimic++/ExpectationPolicies.hpp:Constness", "include/mimic++/TypeTraits.hpp:is_overload_set"]}
{"id": "C114", "title": "All rules for expectation builders together", "statement": "For clients that keep the builder returned by expect_call, add to it in several steps, move it, make an expectation out of it or throw it away, everything is determined by rules that speak only about the history so far: what a client may do, which items are refused with std::invalid_argument, what is observed, and where the program is terminated. Each operation stands for operations of a client that writes down every expectation at once, in the place where the expectation is made and with everything that was said about it in the order it was said; until then a builder has no effect except that it keeps its sequences alive, and a sequence is given up by the client exactly when the last of its object and the builders that hold it ends. Exactly the histories that keep the rules can happen, the same operations make the same observations, and any other library that keeps the rules cannot be told from this one.", "quantifier": "all histories of operations on builders, sequences, mocks and expectations, and all other implementations", "why_tests_cant": "a statement about all histories and implementations: that the rules leave nothing open and nothing out", "anchors": ["include/mimic++/ExpectationBuilder.hpp:BasicExpectationBuilder", "include/mimic++/ExpectationBuilder.hpp:detail::make_expectation_builder", "include/mimic++/Sequence.hpp:sequence::detail::Config", "include/mimic++/ControlPolicy.hpp:TimesConfig"]}
{"id": "C115", "title": "Moving a builder changes nothing", "statement": "A builder returned by expect_call, or by adding something to one, may be moved to a new object at any time. If the new object is used instead of the old one from then on, the test goes on in the same way: the same operations are possible, the same is observed at each of them (which expectations resolve which calls, all reports, when sequences end), and the program is terminated at the same places. The object that was moved from holds no sequence any more, nothing may be added to it and no expectation made out of it, and nothing happens when it ends.", "quantifier": "all histories, all builders in them, whatever was added to them, all moments of the move and all continuations", "why_tests_cant": "a test moves one builder at one moment; the claim is about all of them, about what sequences are kept alive by and about all continuations", "anchors": ["include/mimic++/ExpectationBuilder.hpp:BasicExpectationBuilder", "include/mimic++/ExpectationBuilder.hpp:detail::make_expectation_builder", "include/mimic++/Sequence.hpp:sequence::detail::Config", "include/mimic++/ControlPolicy.hpp:TimesConfig"]}
