{
 "claims": [
  {
   "property": "C01",
   "status": "proved",
   "theorems": [
    "Mimic.C01_times_accepted",
    "Mimic.C01_times_sane",
    "Mimic.C01_expect_accepted"
   ],
   "note": "All int arguments; a rejected definition leaves the world unchanged."
  },
  {
   "property": "C02",
   "status": "proved",
   "theorems": [
    "Mimic.C02_upper_limit",
    "Mimic.C02_counter"
   ],
   "note": "Over all client histories (Reach), by induction through the refinement to the reference semantics."
  },
  {
   "property": "C03",
   "status": "proved",
   "theorems": [
    "Mimic.C03_unfulfilled_iff",
    "Mimic.C03_unfulfilled_once"
   ],
   "note": "Over all client histories."
  },
  {
   "property": "C04",
   "status": "proved",
   "theorems": [
    "Mimic.C04_applicable_iff",
    "Mimic.C04_state_iff",
    "Mimic.C04_observed"
   ],
   "note": "Applicability stated on the event history, without cursor or entry states."
  },
  {
   "property": "C05",
   "status": "proved",
   "theorems": [
    "Mimic.C05_order",
    "Mimic.C05_attachment_order"
   ],
   "note": "Over all client histories."
  },
  {
   "property": "C06",
   "status": "proved",
   "theorems": [
    "Mimic.C06_youngest_wins"
   ],
   "note": ""
  },
  {
   "property": "C07",
   "status": "proved",
   "theorems": [
    "Mimic.C07_lazy_oldest",
    "Mimic.C07_greedy_youngest",
    "Mimic.C07_least",
    "Mimic.C07_most"
   ],
   "note": ""
  },
  {
   "property": "C08",
   "status": "proved",
   "theorems": [
    "Mimic.C08_selection",
    "Mimic.C08_youngest_unless_lazy",
    "Mimic.C08_stable"
   ],
   "note": "The complete rule plus two corollaries."
  },
  {
   "property": "C09",
   "status": "partial",
   "theorems": [
    "Mimic.C09_lazy_skips_ahead",
    "Mimic.C09_lazy_least_progress_partial",
    "Mimic.C09_least_partial"
   ],
   "note": "The code violates the property for overlapping lazy sequences: C09_lazy_skips_ahead is a reachable counterexample. The partial theorems cover nested membership, and say that nothing else leads to it: the expectation that is chosen must belong to a sequence the older one does not belong to."
  },
  {
   "property": "C10",
   "status": "proved",
   "theorems": [
    "Mimic.C10_outcome",
    "Mimic.C10_total"
   ],
   "note": ""
  },
  {
   "property": "C100",
   "status": "proved",
   "theorems": [
    "Mimic.Assign.C100_resolved",
    "Mimic.Assign.C100_passes",
    "Mimic.Assign.C100_counts",
    "Mimic.Assign.C100_order",
    "Mimic.Assign.C100_general_last",
    "Mimic.Assign.C100_not_exact"
   ],
   "note": "The two conditions are needed: C100_general_last and C100_not_exact."
  },
  {
   "property": "C101",
   "status": "proved",
   "theorems": [
    "Mimic.Choice.C101_complete",
    "Mimic.Choice.C101_lazy",
    "Mimic.Choice.C101_greedy",
    "Mimic.Choice.C101_lazy_suffices",
    "Mimic.Choice.C101_exact",
    "Mimic.Choice.C101_optional",
    "Mimic.Choice.C101_differ"
   ],
   "note": "Characterisation in both directions; expectations that accept no call at all are excluded by a hypothesis."
  },
  {
   "property": "C102",
   "status": "proved",
   "theorems": [
    "Mimic.Declare.C102_swap",
    "Mimic.Declare.C102_passes",
    "Mimic.Declare.C102_any",
    "Mimic.Declare.C102_needed"
   ],
   "note": "C102_swap gives the correspondence of all reports, C102_any the verdict for any rearrangement, C102_needed that neither condition can be dropped."
  },
  {
   "property": "C103",
   "status": "proved",
   "theorems": [
    "Mimic.Address.C103_same",
    "Mimic.Address.C103_any",
    "Mimic.Address.C103_defined",
    "Mimic.Address.C103_never_again",
    "Mimic.Address.C103_needed"
   ],
   "note": "Equality of the whole result, including faults; the allocator is assumed not to give away memory in use, and C103_needed shows that this is needed."
  },
  {
   "property": "C104",
   "status": "partial",
   "theorems": [
    "Mimic.Notify.C104_flat_partial",
    "Mimic.Notify.C104_explained",
    "Mimic.Notify.C104_defined",
    "Mimic.Notify.C104_returns",
    "Mimic.Notify.C104_effects",
    "Mimic.Notify.C104_bound",
    "Mimic.Notify.C104_plain",
    "Mimic.Notify.C104_prints",
    "Mimic.Notify.C104_relock",
    "Mimic.Notify.C104_relock_end",
    "Mimic.Notify.C104_endless",
    "Mimic.Notify.C104_observed",
    "Mimic.Notify.C104_exceeded",
    "Mimic.Notify.C104_stale"
   ],
   "note": "Proved for reporters and printers that only call mocks of lower layers than that which a report is about, side effects that call no mocks of higher layers, and sequences that do not connect layers; the rest is false of the code: C104_exceeded, C104_stale, C104_relock, C104_relock_end and C104_endless."
  },
  {
   "property": "C105",
   "status": "proved",
   "theorems": [
    "Mimic.C105_histories",
    "Mimic.C105_determined",
    "Mimic.C105_complete",
    "Mimic.C105_step",
    "Mimic.C105_programs",
    "Mimic.C105_unique",
    "Mimic.C105_interchangeable"
   ],
   "note": "The rules (Spec/Whole.lean) refer to the history only; they are necessary, sufficient and deterministic."
  },
  {
   "property": "C106",
   "status": "partial",
   "theorems": [
    "Mimic.Block.C106_no_deadlock_partial",
    "Mimic.Block.C106_no_relock_partial",
    "Mimic.Block.C106_ends_partial",
    "Mimic.Block.C106_free",
    "Mimic.Block.C106_exclusive",
    "Mimic.Block.C106_deadlock",
    "Mimic.Block.C106_relock",
    "Mimic.Block.C106_endless",
    "Mimic.Block.C106_together"
   ],
   "note": "Proved for client code that keeps to layers, and without any condition on code that runs outside of the mutexes if that inside uses no mocks; the rest is false of the code: C106_deadlock, C106_relock and C106_endless. C106_together is the witness for the last sentence."
  },
  {
   "property": "C107",
   "status": "proved",
   "theorems": [
    "Mimic.Foreign.C107_call",
    "Mimic.Foreign.C107_determined",
    "Mimic.Foreign.C107_progress",
    "Mimic.Foreign.C107_best",
    "Mimic.Foreign.C107_unrated",
    "Mimic.Foreign.C107_push",
    "Mimic.Foreign.C107_unfulfilled",
    "Mimic.Foreign.C107_private",
    "Mimic.Foreign.C107_policy",
    "Mimic.Foreign.C107_state_throws",
    "Mimic.Foreign.C107_says",
    "Mimic.Foreign.C107_result",
    "Mimic.Foreign.C107_satisfied",
    "Mimic.Foreign.C107_change",
    "Mimic.Foreign.C107_library"
   ],
   "note": "Called (Spec/Foreign) says what a call comes to."
  },
  {
   "property": "C108",
   "status": "partial",
   "theorems": [
    "Mimic.Redundant.C108_exactly",
    "Mimic.Redundant.C108_applicable",
    "Mimic.Redundant.C108_covered",
    "Mimic.Redundant.C108_greedy_partial",
    "Mimic.Redundant.C108_twins_partial",
    "Mimic.Redundant.C108_single_partial",
    "Mimic.Redundant.C108_part",
    "Mimic.Redundant.C108_votes",
    "Mimic.Redundant.C108_chain"
   ],
   "note": "C108_exactly is an equivalence for all sequences; the sufficient conditions are C108_greedy_partial, C108_twins_partial and C108_single_partial; in general it is false of the code: C108_part and C108_votes. C108_chain shows that it is not enough to cover neighbours."
  },
  {
   "property": "C109",
   "status": "proved",
   "theorems": [
    "Mimic.Steady.C109_next",
    "Mimic.Steady.C109_future",
    "Mimic.Steady.C109_any_number",
    "Mimic.Steady.C109_leave_out",
    "Mimic.Steady.C109_needed"
   ],
   "note": "C109_needed shows that none of the conditions can be dropped."
  },
  {
   "property": "C11",
   "status": "proved",
   "theorems": [
    "Mimic.C11_unresolved_frame",
    "Mimic.C11_resolved_frame"
   ],
   "note": ""
  },
  {
   "property": "C110",
   "status": "proved",
   "theorems": [
    "Mimic.Watchful.C110_histories",
    "Mimic.Watchful.C110_step",
    "Mimic.Watchful.C110_determined",
    "Mimic.Watchful.C110_complete",
    "Mimic.Watchful.C110_undefined",
    "Mimic.Watchful.C110_unique",
    "Mimic.Watchful.C110_interchangeable"
   ],
   "note": "The limits given to the expectation of an end are ignored, as in the code."
  },
  {
   "property": "C111",
   "status": "proved",
   "theorems": [
    "Mimic.Combined.C111_histories",
    "Mimic.Combined.C111_step",
    "Mimic.Combined.C111_determined",
    "Mimic.Combined.C111_unique",
    "Mimic.Combined.C111_terminates",
    "Mimic.Combined.C111_interchangeable"
   ],
   "note": "C111_terminates leaves out the use of objects that carry nothing (undefined behaviour, C35) and full sequences (C17)."
  },
  {
   "property": "C112",
   "status": "proved",
   "theorems": [
    "Mimic.Scoping.C112_histories",
    "Mimic.Scoping.C112_step",
    "Mimic.Scoping.C112_terminates",
    "Mimic.Scoping.C112_undefined",
    "Mimic.Scoping.C112_determined",
    "Mimic.Scoping.C112_complete",
    "Mimic.Scoping.C112_lawful_reporter",
    "Mimic.Scoping.C112_unique",
    "Mimic.Scoping.C112_interchangeable"
   ],
   "note": "Reporters are functions of the report and of the number of uncaught exceptions, and may be replaced before each operation."
  },
  {
   "property": "C113",
   "status": "proved",
   "theorems": [
    "Mimic.Mocking.C113_histories",
    "Mimic.Mocking.C113_step",
    "Mimic.Mocking.C113_terminates",
    "Mimic.Mocking.C113_undefined",
    "Mimic.Mocking.C113_determined",
    "Mimic.Mocking.C113_unique",
    "Mimic.Mocking.C113_interchangeable"
   ],
   "note": "Which overload an expression means is decided by the C++ language; the operations name the overload."
  },
  {
   "property": "C114",
   "status": "proved",
   "theorems": [
    "Mimic.C114_histories",
    "Mimic.C114_without",
    "Mimic.C114_step",
    "Mimic.C114_terminates",
    "Mimic.C114_forbidden",
    "Mimic.C114_determined",
    "Mimic.C114_complete",
    "Mimic.C114_unique",
    "Mimic.C114_interchangeable"
   ],
   "note": "What does not compile is not distinguished from the use of objects that do not exist or were moved from. Assigning one builder to another is not modelled."
  },
  {
   "property": "C115",
   "status": "proved",
   "theorems": [
    "Mimic.C115_moved",
    "Mimic.C115_stops",
    "Mimic.C115_shell",
    "Mimic.C115_end"
   ],
   "note": "Assigning one builder to another is not modelled."
  },
  {
   "property": "C12",
   "status": "proved",
   "theorems": [
    "Mimic.C12_contained",
    "Mimic.C12_reported_once"
   ],
   "note": ""
  },
  {
   "property": "C13",
   "status": "proved",
   "theorems": [
    "Mimic.C13_in_force",
    "Mimic.C13_withdrawn"
   ],
   "note": ""
  },
  {
   "property": "C14",
   "status": "proved",
   "theorems": [
    "Mimic.C14_sequence_error",
    "Mimic.C14_error_iff",
    "Mimic.C14_reported"
   ],
   "note": ""
  },
  {
   "property": "C15",
   "status": "proved",
   "theorems": [
    "Mimic.C15_never_overstated",
    "Mimic.C15_undercounts"
   ],
   "note": "The undercount is shown by a reachable witness; the bound holds for all histories."
  },
  {
   "property": "C16",
   "status": "proved",
   "theorems": [
    "Mimic.C16_ended_iff",
    "Mimic.C16_ended_once",
    "Mimic.C16_order_survives"
   ],
   "note": ""
  },
  {
   "property": "C17",
   "status": "proved",
   "theorems": [
    "Mimic.C17_progress",
    "Mimic.C17_no_ub",
    "Mimic.C17_program_no_ub"
   ],
   "note": ""
  },
  {
   "property": "C18",
   "status": "proved",
   "theorems": [
    "Mimic.C18_ids",
    "Mimic.C18_boundary",
    "Mimic.C18_accepts_below"
   ],
   "note": ""
  },
  {
   "property": "C19",
   "status": "proved",
   "theorems": [
    "Mimic.C19_duplicates",
    "Mimic.C20_inert"
   ],
   "note": "All lists of groups; a rejected attempt leaves everything unchanged (C20_inert)."
  },
  {
   "property": "C20",
   "status": "proved",
   "theorems": [
    "Mimic.C20_compose",
    "Mimic.C20_stepwise",
    "Mimic.C20_keeps",
    "Mimic.C20_inert",
    "Mimic.C20_transparent",
    "Mimic.C20_finalize",
    "Mimic.C20_no_ub"
   ],
   "note": "Builders as first-class objects holding references to sequences; every history with builders simulates to one without."
  },
  {
   "property": "C21",
   "status": "proved",
   "theorems": [
    "Mimic.C21_pair",
    "Mimic.C21_set",
    "Mimic.C21_relation",
    "Mimic.C21_variadic"
   ],
   "note": "Signature traits and overload sets modelled as tables over abstract types; variadic signatures are ill-formed."
  },
  {
   "property": "C22",
   "status": "proved",
   "theorems": [
    "Mimic.C22_outcome",
    "Mimic.C22_selection",
    "Mimic.C22_isolated",
    "Mimic.C22_policies"
   ],
   "note": "Diagnostics are not isolated between overloads sharing a storage; see the examples beside the theorems."
  },
  {
   "property": "C23",
   "status": "proved",
   "theorems": [
    "Mimic.C23_storages",
    "Mimic.C23_binding"
   ],
   "note": ""
  },
  {
   "property": "C24",
   "status": "proved",
   "theorems": [
    "Mimic.C24_transformations",
    "Mimic.C24_laws"
   ],
   "note": ""
  },
  {
   "property": "C25",
   "status": "proved",
   "theorems": [
    "Mimic.C25_order",
    "Mimic.C25_counted",
    "Mimic.C25_fold"
   ],
   "note": "Interpreter for arbitrary client code (reads, writes, library operations, exceptions) as side effects and finalizers. Matchers and reporters are assumed not to re-enter the library."
  },
  {
   "property": "C26",
   "status": "proved",
   "theorems": [
    "Mimic.C26_selection",
    "Mimic.C26_range",
    "Mimic.C26_parameters",
    "Mimic.C26_untouched",
    "Mimic.C26_by_reference",
    "Mimic.C26_returns_arg",
    "Mimic.C26_returned"
   ],
   "note": ""
  },
  {
   "property": "C27",
   "status": "proved",
   "theorems": [
    "Mimic.C27_flat",
    "Mimic.C27_limit",
    "Mimic.C27_ub_cause",
    "Mimic.C27_no_ub",
    "Mimic.C27_self_destruction"
   ],
   "note": "One exception, proved as C27_self_destruction: a side effect that destroys its own expectation leads to undefined behaviour; C27_ub_cause shows that there is no other way."
  },
  {
   "property": "C28",
   "status": "proved",
   "theorems": [
    "Mimic.C28_side_effect",
    "Mimic.C28_finalizer",
    "Mimic.C28_unresolved",
    "Mimic.C28_noexcept"
   ],
   "note": ""
  },
  {
   "property": "C29",
   "status": "proved",
   "theorems": [
    "Mimic.C29_comparison",
    "Mimic.C29_negation",
    "Mimic.C29_negation_throws",
    "Mimic.C29_double_negation",
    "Mimic.C29_descriptions",
    "Mimic.C29_texts",
    "Mimic.C29_complement",
    "Mimic.C29_partial_order",
    "Mimic.C29_instance",
    "Mimic.C29_instance_texts",
    "Mimic.C29_predicate_texts"
   ],
   "note": ""
  },
  {
   "property": "C30",
   "status": "proved",
   "theorems": [
    "Mimic.C30_strings",
    "Mimic.C30_c_strings",
    "Mimic.C30_texts"
   ],
   "note": ""
  },
  {
   "property": "C31",
   "status": "partial",
   "theorems": [
    "Mimic.C31_fold_defined",
    "Mimic.C31_case_insensitive_partial",
    "Mimic.C31_weaker_partial",
    "Mimic.C31_insensitive_partial",
    "Mimic.C31_c_strings",
    "Mimic.C31_undefined",
    "Mimic.C31_texts"
   ],
   "note": "Proved for texts of characters that toupper accepts; C31_undefined proves that the general statement fails: a negative char is passed to std::toupper, which is undefined behaviour. Only char; the Unicode case folding of a custom string_case_fold_converter is treated in C63."
  },
  {
   "property": "C32",
   "status": "proved",
   "theorems": [
    "Mimic.C32_eq",
    "Mimic.C32_eq_lawful",
    "Mimic.C32_unordered",
    "Mimic.C32_unordered_lawful",
    "Mimic.C32_sorted",
    "Mimic.C32_sorted_global",
    "Mimic.C32_size",
    "Mimic.C32_elements",
    "Mimic.C32_de_morgan",
    "Mimic.C32_texts",
    "Mimic.C32_element_texts"
   ],
   "note": ""
  },
  {
   "property": "C33",
   "status": "proved",
   "theorems": [
    "Mimic.C33_report",
    "Mimic.C33_conjunction",
    "Mimic.C33_order",
    "Mimic.C33_monotone",
    "Mimic.C33_full"
   ],
   "note": ""
  },
  {
   "property": "C34",
   "status": "proved",
   "theorems": [
    "Mimic.C34_carrier",
    "Mimic.C34_trigger",
    "Mimic.C34_once",
    "Mimic.C34_at_most_once",
    "Mimic.C34_moved_from",
    "Mimic.C34_copy",
    "Mimic.C34_logic_error",
    "Mimic.C34_expect",
    "Mimic.C34_outcome",
    "Mimic.C34_others",
    "Mimic.C34_progress"
   ],
   "note": "Watchers used on their own; see C49 for Watched<Base, Watchers...>."
  },
  {
   "property": "C35",
   "status": "proved",
   "theorems": [
    "Mimic.C35_discard",
    "Mimic.C35_unfulfilled",
    "Mimic.C35_undefined"
   ],
   "note": ""
  },
  {
   "property": "C36",
   "status": "proved",
   "theorems": [
    "Mimic.C34_trigger",
    "Mimic.C34_outcome",
    "Mimic.C36_travel",
    "Mimic.C36_failure",
    "Mimic.C36_count",
    "Mimic.C35_undefined"
   ],
   "note": ""
  },
  {
   "property": "C37",
   "status": "proved",
   "theorems": [
    "Mimic.C37_owner",
    "Mimic.C37_create",
    "Mimic.C37_move",
    "Mimic.C37_library",
    "Mimic.C37_checked",
    "Mimic.C37_silent",
    "Mimic.C37_once",
    "Mimic.C37_assign_terminates",
    "Mimic.C37_assign",
    "Mimic.C37_query"
   ],
   "note": "The termination on assignment that the statement describes is proved as well (C37_assign_terminates, C37_assign)."
  },
  {
   "property": "C38",
   "status": "proved",
   "theorems": [
    "Mimic.C38_lawful",
    "Mimic.C38_written",
    "Mimic.C38_call",
    "Mimic.C38_drop",
    "Mimic.C38_unwinding",
    "Mimic.C38_careless",
    "Mimic.C38_scope",
    "Mimic.C38_scope_terminates"
   ],
   "note": "Single expectations and whole scopes, for every reporter that follows the rules of IReporter; both reporters of the library do."
  },
  {
   "property": "C39",
   "status": "proved",
   "theorems": [
    "Mimic.C39_never_caught",
    "Mimic.C39_sequence_object",
    "Mimic.C38_drop",
    "Mimic.C38_scope_terminates"
   ],
   "note": ""
  },
  {
   "property": "C40",
   "status": "partial",
   "theorems": [
    "Mimic.C40_outcome",
    "Mimic.C40_defined",
    "Mimic.C40_unfulfilled",
    "Mimic.C40_query",
    "Mimic.C40_counted",
    "Mimic.C40_limit_partial",
    "Mimic.C40_asserts",
    "Mimic.C40_overshoot",
    "Mimic.C40_overshoot_asserts",
    "Mimic.C40_withdrawn",
    "Mimic.C40_races",
    "Mimic.C40_later_call_races",
    "Mimic.C40_overlapping_call_races",
    "Mimic.C40_sequential",
    "Mimic.C40_guarded"
   ],
   "note": "The code violates the intended limits: C40_overshoot, C40_overshoot_asserts, C40_withdrawn, C40_later_call_races. Proved for schedules whose calls do not overlap (C40_limit_partial, C40_sequential, C40_guarded). Missing: nothing can be added for overlapping calls, since the claim is false there."
  },
  {
   "property": "C41",
   "status": "proved",
   "theorems": [
    "Mimic.C41_words",
    "Mimic.C41_determines",
    "Mimic.C41_history"
   ],
   "note": ""
  },
  {
   "property": "C42",
   "status": "proved",
   "theorems": [
    "Mimic.C42_create_iff",
    "Mimic.C42_call_iff",
    "Mimic.C42_expect_iff",
    "Mimic.C42_destroy_iff",
    "Mimic.C42_life",
    "Mimic.C42_assign",
    "Mimic.C42_ub_iff",
    "Mimic.C42_move",
    "Mimic.C42_still_checked",
    "Mimic.C42_drop"
   ],
   "note": ""
  },
  {
   "property": "C43",
   "status": "proved",
   "theorems": [
    "Mimic.C43_header",
    "Mimic.C43_outcome",
    "Mimic.C43_lists"
   ],
   "note": ""
  },
  {
   "property": "C44",
   "status": "proved",
   "theorems": [
    "Mimic.C44_choice",
    "Mimic.C44_range",
    "Mimic.C44_tuple",
    "Mimic.C44_optional",
    "Mimic.C44_pointer",
    "Mimic.C44_integer",
    "Mimic.C44_unknown",
    "Mimic.C44_dump",
    "Mimic.C44_dumped",
    "Mimic.C44_pointed",
    "Mimic.C44_chars",
    "Mimic.C44_unambiguous",
    "Mimic.C44_defined",
    "Mimic.C44_strings_ambiguous"
   ],
   "note": "C44_strings_ambiguous shows where the text does not determine the value."
  },
  {
   "property": "C45",
   "status": "proved",
   "theorems": [
    "Mimic.C45_overloaded",
    "Mimic.C45_method",
    "Mimic.C45_parameters",
    "Mimic.C45_signature",
    "Mimic.C45_parenthesised",
    "Mimic.C45_limit"
   ],
   "note": "The preprocessor is modelled. C45_limit: the bound on overloads is sharp. C45_parenthesised: enclosing parentheses stay in the signature of the mock."
  },
  {
   "property": "C46",
   "status": "partial",
   "theorems": [
    "Mimic.C46_predicate",
    "Mimic.C46_no_influence_partial",
    "Mimic.C46_call",
    "Mimic.C46_lost",
    "Mimic.C46_braces",
    "Mimic.C46_reported"
   ],
   "note": "False: the description is used as a format string, so that single braces make describe() throw; then every call on the mock terminates the program (C46_call, C46_braces) and an unfulfilled expectation is never reported (C46_lost). Proved for histories without throwing descriptions (C46_no_influence_partial); which descriptions throw: C46_predicate."
  },
  {
   "property": "C47",
   "status": "partial",
   "theorems": [
    "Mimic.Capture.C47_unchanged_partial",
    "Mimic.Capture.C47_emptied",
    "Mimic.Capture.C47_lost",
    "Mimic.Capture.C47_const",
    "Mimic.Capture.C47_counterexample"
   ],
   "note": "The code violates the property: C47_counterexample, C47_emptied, C47_lost. C47_unchanged_partial: true for all other ways of using a named matcher. Missing: each_element and any_element, for which the claim is false."
  },
  {
   "property": "C48",
   "status": "partial",
   "theorems": [
    "Mimic.Capture.C48_value_semantics_partial",
    "Mimic.Capture.C48_safe_partial",
    "Mimic.Capture.C48_progress",
    "Mimic.Capture.C48_complete",
    "Mimic.Capture.C48_kept",
    "Mimic.Capture.C48_follows",
    "Mimic.Capture.C48_dangles",
    "Mimic.Capture.C48_given_away",
    "Mimic.Capture.C48_texts",
    "Mimic.Capture.C48_copied",
    "Mimic.Capture.C48_predicate_text",
    "Mimic.Capture.C48_counterexample"
   ],
   "note": "The code violates the property: C48_counterexample, C48_follows, C48_dangles. Proved for programs that leave objects alone that matchers refer to (C48_value_semantics_partial, C48_safe_partial). Missing: other programs, for which the claim is false."
  },
  {
   "property": "C49",
   "status": "proved",
   "theorems": [
    "Mimic.C49_watchers",
    "Mimic.C49_create",
    "Mimic.C49_move",
    "Mimic.C49_assign",
    "Mimic.C49_move_assign",
    "Mimic.C49_copy",
    "Mimic.C49_noexcept",
    "Mimic.C49_drop",
    "Mimic.C49_one_exception",
    "Mimic.C49_construct_terminates",
    "Mimic.C49_assign_terminates",
    "Mimic.C49_drop_terminates",
    "Mimic.C49_progress"
   ],
   "note": "Every history of watched objects is one of single watchers, so C34-C36 apply to each of them."
  },
  {
   "property": "C50",
   "status": "partial",
   "theorems": [
    "Mimic.C50_failed_move",
    "Mimic.C50_relocation_first_partial",
    "Mimic.C50_lifetime_first",
    "Mimic.C50_base_throws"
   ],
   "note": "The code violates the property: C50_lifetime_first (an unexpected relocation uses up the destruction watch of a living object) and C50_base_throws (a throwing constructor of the client class terminates the program). C50_failed_move says exactly what is lost; C50_relocation_first_partial proves the property when the relocation watcher comes first and the client class does not fail."
  },
  {
   "property": "C51",
   "status": "proved",
   "theorems": [
    "Mimic.C51_call",
    "Mimic.C51_unfulfilled",
    "Mimic.C10_outcome"
   ],
   "note": "C10_outcome says which expectations the reports list."
  },
  {
   "property": "C52",
   "status": "partial",
   "theorems": [
    "Mimic.C52_char_pointer",
    "Mimic.C52_partial"
   ],
   "note": "The code violates the property: C52_char_pointer. C52_partial: calls with any other arguments are defined and reported."
  },
  {
   "property": "C53",
   "status": "proved",
   "theorems": [
    "Mimic.Capture.C53_returns",
    "Mimic.Capture.C53_progress",
    "Mimic.Capture.C53_throws",
    "Mimic.Capture.C53_reference",
    "Mimic.Capture.C53_wrapper",
    "Mimic.Capture.C53_dangles",
    "Mimic.Capture.C53_moved_out"
   ],
   "note": ""
  },
  {
   "property": "C54",
   "status": "partial",
   "theorems": [
    "Mimic.Shorthand.C54_meaning_partial",
    "Mimic.Shorthand.C54_unreadable",
    "Mimic.Shorthand.C54_accepted_partial",
    "Mimic.Shorthand.C54_rejected",
    "Mimic.Shorthand.C54_taken_apart",
    "Mimic.Shorthand.C54_sign",
    "Mimic.Shorthand.C54_numbers",
    "Mimic.Shorthand.C54_unwrapped"
   ],
   "note": "The code violates the property: C54_taken_apart, C54_sign, C54_unwrapped. Missing from the partial theorems: pairs, tuples and comparisons of negative numbers with unsigned ones, for which the claim is false."
  },
  {
   "property": "C55",
   "status": "partial",
   "theorems": [
    "Mimic.Fragile.C55_outcome",
    "Mimic.Fragile.C55_as_if",
    "Mimic.Fragile.C55_blocks",
    "Mimic.Fragile.C55_sequence_error",
    "Mimic.Fragile.C55_harmless_partial",
    "Mimic.Fragile.C55_end_partial",
    "Mimic.Fragile.C55_counterexample"
   ],
   "note": "The code violates the property: C55_blocks, C55_sequence_error, C55_counterexample, and C55_outcome for terminating programs. Missing from the partial theorems: failed attempts with a sequence and a required call, for which the claim is false."
  },
  {
   "property": "C56",
   "status": "partial",
   "theorems": [
    "Mimic.Select.C56_expectation",
    "Mimic.Select.C56_call",
    "Mimic.Select.C56_agree_partial",
    "Mimic.Select.C56_preferred",
    "Mimic.Select.C56_preferred_call",
    "Mimic.Select.C56_ambiguous",
    "Mimic.Select.C56_location",
    "Mimic.Select.C56_history",
    "Mimic.Select.C56_counterexample"
   ],
   "note": "The code violates the property: C56_counterexample, C56_ambiguous. Proved for expressions for which both overloads are possible (C56_agree_partial). Missing: other expressions, for which the claim is false."
  },
  {
   "property": "C57",
   "status": "partial",
   "theorems": [
    "Mimic.Select.C57_routed_partial",
    "Mimic.Select.C57_compiles",
    "Mimic.Select.C57_rvalue",
    "Mimic.Select.C57_unmet",
    "Mimic.Select.C57_counterexample"
   ],
   "note": "The code violates the property: C57_rvalue, C57_counterexample. Proved for all methods without && (C57_routed_partial). Missing: methods with &&, for which the claim is false."
  },
  {
   "property": "C58",
   "status": "partial",
   "theorems": [
    "Mimic.TestRun.C58_history",
    "Mimic.TestRun.C58_sequences",
    "Mimic.TestRun.C58_defined",
    "Mimic.TestRun.C58_misuse",
    "Mimic.TestRun.C58_failures",
    "Mimic.TestRun.C58_assertions",
    "Mimic.TestRun.C58_messages",
    "Mimic.TestRun.C58_noticed",
    "Mimic.TestRun.C58_passed_partial",
    "Mimic.TestRun.C58_swallowed_partial",
    "Mimic.TestRun.C58_no_false_alarm",
    "Mimic.TestRun.C58_verdict",
    "Mimic.TestRun.C58_hidden",
    "Mimic.TestRun.C58_default_swallows",
    "Mimic.TestRun.C58_gtest_silent"
   ],
   "note": "The code violates the property: C58_hidden, C58_default_swallows. Proved for tests without handlers (C58_passed_partial, C58_verdict) and, with the adapters, for tests that throw nothing themselves (C58_swallowed_partial). Missing: other tests, for which the claim is false."
  },
  {
   "property": "C59",
   "status": "partial",
   "theorems": [
    "Mimic.Shown.C59_stable",
    "Mimic.Shown.C59_printable",
    "Mimic.Shown.C59_fails",
    "Mimic.Shown.C59_custom",
    "Mimic.Shown.C59_text",
    "Mimic.Shown.C59_agrees",
    "Mimic.Shown.C59_path",
    "Mimic.Shown.C59_partial",
    "Mimic.Shown.C59_throws",
    "Mimic.Shown.C59_terminates",
    "Mimic.Shown.C59_endless",
    "Mimic.Shown.C59_counterexample",
    "Mimic.Shown.C59_path_counterexample",
    "Mimic.Shown.C59_subrange"
   ],
   "note": "The code violates the property: C59_counterexample, C59_path_counterexample. Proved for all arguments that can be printed (C59_partial with C59_printable), and what happens otherwise (C59_throws, C59_terminates, C59_endless). Missing: arguments that cannot be printed, for which the claim is false."
  },
  {
   "property": "C60",
   "status": "partial",
   "theorems": [
    "Mimic.Nested.C60_flat_partial",
    "Mimic.Nested.C60_explained",
    "Mimic.Nested.C60_candidate",
    "Mimic.Nested.C60_defined",
    "Mimic.Nested.C60_returns",
    "Mimic.Nested.C60_back",
    "Mimic.Nested.C60_ends",
    "Mimic.Nested.C60_relock",
    "Mimic.Nested.C60_relock_ub",
    "Mimic.Nested.C60_relock_through",
    "Mimic.Nested.C60_stale_assert",
    "Mimic.Nested.C60_stale_inapplicable",
    "Mimic.Nested.C60_no_deadlock",
    "Mimic.Nested.C60_all_return",
    "Mimic.Nested.C60_exclusive",
    "Mimic.Nested.C60_deadlock",
    "Mimic.Nested.C60_quiet"
   ],
   "note": "The code violates the property: C60_relock, C60_stale_assert, C60_stale_inapplicable, C60_deadlock. Proved for programs whose matchers only call mocks of lower layers and whose sequences do not connect layers. Missing: other programs, for which the claim is false in general."
  },
  {
   "property": "C61",
   "status": "proved",
   "theorems": [
    "Mimic.C61_words",
    "Mimic.C61_call",
    "Mimic.C61_takes_place",
    "Mimic.C61_other",
    "Mimic.C61_unfulfilled"
   ],
   "note": "Texts of all reports about calls of mocks and their expectations, for all histories with mocks; C61_call is stated for calls whose arguments can be printed (C44, C52)."
  },
  {
   "property": "C62",
   "status": "partial",
   "theorems": [
    "Mimic.Forward.C62_returns_partial",
    "Mimic.Forward.C62_itself",
    "Mimic.Forward.C62_dangles",
    "Mimic.Forward.C62_compiles",
    "Mimic.Forward.C62_fits",
    "Mimic.Forward.C62_const",
    "Mimic.Forward.C62_caller",
    "Mimic.Forward.C62_received"
   ],
   "note": "The code violates the property: C62_dangles, and an example beside C62_received. Proved for all other combinations of parameters and return types. Objects that two arguments mention are left out, since the order of evaluation is unspecified. Missing: combinations for which the claim is false."
  },
  {
   "property": "C63",
   "status": "partial",
   "theorems": [
    "Mimic.Fold.C63_units",
    "Mimic.Fold.C63_fit",
    "Mimic.Fold.C63_folded",
    "Mimic.Fold.C63_texts",
    "Mimic.Fold.C63_insensitive",
    "Mimic.Fold.C63_points",
    "Mimic.Fold.C63_accepts",
    "Mimic.Fold.C63_weaker",
    "Mimic.Fold.C63_only_partial",
    "Mimic.Fold.C63_eq",
    "Mimic.Fold.C63_converters",
    "Mimic.Fold.C63_half",
    "Mimic.Fold.C63_cut",
    "Mimic.Fold.C63_lazy"
   ],
   "note": "The code violates the property: C63_half, C63_cut. Proved: everything for well-formed texts, where for starts_with, ends_with and contains nothing else is accepted provided that the code points of the target are folded to single ones. Missing: other targets, for which this is false."
  },
  {
   "property": "C64",
   "status": "partial",
   "theorems": [
    "Mimic.Touch.C64_flat",
    "Mimic.Touch.C64_explained",
    "Mimic.Touch.C64_candidate",
    "Mimic.Touch.C64_returns",
    "Mimic.Touch.C64_judges_partial",
    "Mimic.Touch.C64_untouched_partial",
    "Mimic.Touch.C64_pass_answer",
    "Mimic.Touch.C64_pass_left",
    "Mimic.Touch.C64_pass_gentle",
    "Mimic.Touch.C64_changed",
    "Mimic.Touch.C64_depends",
    "Mimic.Touch.C64_single_pass",
    "Mimic.Touch.C64_documented_partial"
   ],
   "note": "The code violates the property: C64_changed, C64_depends, C64_single_pass. Proved for matchers that leave their targets alone (the partial theorems); missing: other matchers, for which C64_explained says what happens instead."
  },
  {
   "property": "C65",
   "status": "partial",
   "theorems": [
    "Mimic.Custom.C65_arg",
    "Mimic.Custom.C65_matcher_for",
    "Mimic.Custom.C65_each_partial",
    "Mimic.Custom.C65_any_partial",
    "Mimic.Custom.C65_elements_traits",
    "Mimic.Custom.C65_catch2",
    "Mimic.Custom.C65_elements_differ",
    "Mimic.Custom.C65_own"
   ],
   "note": "The code violates the property: C65_elements_traits, C65_catch2, C65_elements_differ. Proved for direct use, and with each_element and any_element for matchers whose traits, if any, agree with their members; missing: the others, for which it is false."
  },
  {
   "property": "C66",
   "status": "partial",
   "theorems": [
    "Mimic.TestRun.C66_nested",
    "Mimic.TestRun.C66_younger",
    "Mimic.TestRun.C66_preferred_partial",
    "Mimic.TestRun.C66_not_lazy_partial",
    "Mimic.TestRun.C66_only",
    "Mimic.TestRun.C66_unsequenced",
    "Mimic.TestRun.C66_lazy",
    "Mimic.TestRun.C66_bystander",
    "Mimic.TestRun.C66_assigned",
    "Mimic.TestRun.C66_moved"
   ],
   "note": "The code violates the property: C66_lazy, C66_bystander, C66_assigned, C66_moved. Proved for tests that do not move scoped expectations, if no candidate is attached to more lazy than greedy sequences, or the one from the outer scope to no lazy sequence; C66_only says what it takes otherwise. Missing: the others, for which it is false."
  },
  {
   "property": "C67",
   "status": "proved",
   "theorems": [
    "Mimic.Own.C67_flat",
    "Mimic.Own.C67_state",
    "Mimic.Own.C67_resolved",
    "Mimic.Own.C67_chosen",
    "Mimic.Own.C67_reports",
    "Mimic.Own.C67_unfulfilled",
    "Mimic.Own.C67_satisfied",
    "Mimic.Own.C67_returns",
    "Mimic.Own.C67_possible",
    "Mimic.Own.C67_no_ub",
    "Mimic.Own.C67_plain",
    "Mimic.Own.C67_library"
   ],
   "note": "Policies and finalizers are arbitrary functions on arbitrary states (sigma). describe() of policies does not depend on their state; finalizers that throw are covered by choosing the result type."
  },
  {
   "property": "C68",
   "status": "proved",
   "theorems": [
    "Mimic.C68_histories",
    "Mimic.C68_programs",
    "Mimic.C68_replace",
    "Mimic.C68_order",
    "Mimic.C68_wildcard",
    "Mimic.C68_joined",
    "Mimic.C68_described"
   ],
   "note": "Requirements are functions of the call; for requirements that change their targets the order does matter, see C64_depends. The texts of reports are not compared."
  },
  {
   "property": "C69",
   "status": "partial",
   "theorems": [
    "Mimic.Stringify.C69_preferred",
    "Mimic.Stringify.C69_unusable",
    "Mimic.Stringify.C69_documented_partial",
    "Mimic.Stringify.C69_passing_partial",
    "Mimic.Stringify.C69_local",
    "Mimic.Stringify.C69_args_partial",
    "Mimic.Stringify.C69_consistent",
    "Mimic.Stringify.C69_reference_printer",
    "Mimic.Stringify.C69_filtered_view",
    "Mimic.Stringify.C69_vector_bool"
   ],
   "note": "Holds for custom printers that take their object by value or const reference and for ranges that do not depend on constness. For others it is false of the code: C69_reference_printer, C69_filtered_view, C69_vector_bool."
  },
  {
   "property": "C70",
   "status": "proved",
   "theorems": [
    "Mimic.Parts.C70_parts",
    "Mimic.Parts.C70_together",
    "Mimic.Parts.C70_order",
    "Mimic.Parts.C70_alone"
   ],
   "note": "Operations of the parts are interleaved as a whole; for calls from several threads see C40. The reporter, which all parts share, is not part of the observation."
  },
  {
   "property": "C71",
   "status": "proved",
   "theorems": [
    "Mimic.Reorder.C71_order",
    "Mimic.Reorder.C71_step",
    "Mimic.Reorder.C71_possible"
   ],
   "note": "The texts of reports, which list priorities in the order of the sequences, are not compared."
  },
  {
   "property": "C72",
   "status": "proved",
   "theorems": [
    "Mimic.C72_safe",
    "Mimic.C72_own_calls",
    "Mimic.C72_own_verdicts"
   ],
   "note": "As in C40, expectations in sequences are not covered, and neither is what the reporter, which the threads share, does with the reports."
  },
  {
   "property": "C73",
   "status": "proved",
   "theorems": [
    "Mimic.Threads.C73_alone",
    "Mimic.Threads.C73_together",
    "Mimic.Threads.C73_disjoint",
    "Mimic.Threads.C73_race_free",
    "Mimic.Threads.C73_sequential",
    "Mimic.Threads.C73_threads",
    "Mimic.Threads.C73_steps",
    "Mimic.Threads.C73_programs",
    "Mimic.Threads.C73_locked",
    "Mimic.Threads.C73_writes",
    "Mimic.Threads.C73_reads",
    "Mimic.Threads.C73_storages",
    "Mimic.Threads.C73_query",
    "Mimic.Threads.C73_shared_sequence"
   ],
   "note": "C73_shared_sequence shows that sequences must not be shared between threads without a lock of the client, as documented. Side effects, finalizers and what the shared reporter does with the reports are not covered."
  },
  {
   "property": "C74",
   "status": "partial",
   "theorems": [
    "Mimic.Unused.C74_without_partial",
    "Mimic.Unused.C74_unused_partial",
    "Mimic.Unused.C74_rejecting",
    "Mimic.Bystander.C74_exactly",
    "Mimic.Bystander.C74_same_sequences_partial",
    "Mimic.Bystander.C74_passed_over_partial",
    "Mimic.Bystander.C74_greedy_partial",
    "Mimic.Bystander.C74_rejecting_partial",
    "Mimic.Bystander.C74_scoped",
    "Mimic.Unused.C74_sequences",
    "Mimic.Bystander.C74_single"
   ],
   "note": "Proved for expectations that belong to no sequence, and, if they need not be used, for those that compete only with expectations of the same sequences, that were passed over, that reject all calls, or in tests without lazy sequences. C74_exactly is the exact condition. For others it is false: C74_sequences, C74_single."
  },
  {
   "property": "C75",
   "status": "proved",
   "theorems": [
    "Mimic.Language.C75_accepted",
    "Mimic.Language.C75_word",
    "Mimic.Language.C75_unambiguous",
    "Mimic.Language.C75_lazy",
    "Mimic.Language.C75_runs",
    "Mimic.Language.C75_counterexample"
   ],
   "note": "For policies that are satisfied, as all policies of the library are. C75_counterexample shows that the condition of C75_unambiguous is needed."
  },
  {
   "property": "C76",
   "status": "proved",
   "theorems": [
    "Mimic.Relax.C76_same",
    "Mimic.Relax.C76_passes",
    "Mimic.Relax.C76_lazy",
    "Mimic.Relax.C76_greedy",
    "Mimic.Relax.C76_competing"
   ],
   "note": "C76_greedy and C76_competing prove that it does not hold in general, as the property says."
  },
  {
   "property": "C77",
   "status": "proved",
   "theorems": [
    "Mimic.Merge.C77_same",
    "Mimic.Merge.C77_passes",
    "Mimic.Merge.C77_ranges",
    "Mimic.Merge.C77_between"
   ],
   "note": "C77_ranges and C77_between prove that exact counts and adjacent creation are needed, as the property says. The positions stated in reports about unfulfilled sequences differ and are not compared."
  },
  {
   "property": "C78",
   "status": "proved",
   "theorems": [
    "Mimic.Kinds.C78_kinds",
    "Mimic.Kinds.C78_apart",
    "Mimic.Kinds.C78_ambiguous"
   ],
   "note": "C78_ambiguous proves that the condition is needed, as the property says."
  },
  {
   "property": "C79",
   "status": "proved",
   "theorems": [
    "Mimic.Finish.C79_order"
   ],
   "note": ""
  },
  {
   "property": "C80",
   "status": "proved",
   "theorems": [
    "Mimic.C80_never",
    "Mimic.C80_sequences"
   ],
   "note": "Compares verdicts: the texts of reports about unresolved calls and the positions stated for unfulfilled sequences differ, as the property says."
  },
  {
   "property": "C81",
   "status": "partial",
   "theorems": [
    "Mimic.Contracts.C81_created",
    "Mimic.Contracts.C81_requirement",
    "Mimic.Contracts.C81_created_partial",
    "Mimic.Contracts.C81_created_counterexample",
    "Mimic.Contracts.C81_result_of",
    "Mimic.Contracts.C81_result_of_partial",
    "Mimic.Contracts.C81_result_of_counterexample",
    "Mimic.Contracts.C81_finalizers",
    "Mimic.Contracts.C81_side_effects",
    "Mimic.Contracts.C81_predicates"
   ],
   "note": "The property is false of the code for unusual classes (see the counterexamples); the exact conditions are proved. Moves of policies while an expectation is composed are C55."
  },
  {
   "property": "C82",
   "status": "proved",
   "theorems": [
    "Mimic.Moves.C82_earlier",
    "Mimic.Moves.C82_earlier_passes",
    "Mimic.Moves.C82_order",
    "Mimic.Moves.C82_order_passes",
    "Mimic.Moves.C82_overlap",
    "Mimic.Moves.C82_sequence"
   ],
   "note": ""
  },
  {
   "property": "C83",
   "status": "partial",
   "theorems": [
    "Mimic.Install.C83_report",
    "Mimic.Install.C83_log",
    "Mimic.Install.C83_destroyed",
    "Mimic.Install.C83_failed",
    "Mimic.Install.C83_defined",
    "Mimic.Install.C83_exit",
    "Mimic.Install.C83_exit_unused",
    "Mimic.Install.C83_exit_partial",
    "Mimic.Install.C83_counterexample"
   ],
   "note": "That objects with static storage duration can report until the end is false (C83_counterexample); C83_exit and C83_exit_unused tell exactly when, C83_exit_partial gives a sufficient condition."
  },
  {
   "property": "C84",
   "status": "proved",
   "theorems": [
    "Mimic.Again.C84_like_new",
    "Mimic.Again.C84_still_like_new",
    "Mimic.Again.C84_sections"
   ],
   "note": ""
  },
  {
   "property": "C85",
   "status": "proved",
   "theorems": [
    "Mimic.Shared.C85_once",
    "Mimic.Shared.C85_race_free",
    "Mimic.Shared.C85_reports_only",
    "Mimic.Shared.C85_needed",
    "Mimic.Shared.C85_reported_to",
    "Mimic.Shared.C85_still_in_force",
    "Mimic.Shared.C85_defined",
    "Mimic.Shared.C85_startup",
    "Mimic.Shared.C85_unsynchronised"
   ],
   "note": ""
  },
  {
   "property": "C86",
   "status": "proved",
   "theorems": [
    "Mimic.Exchange.C86_exchange",
    "Mimic.Exchange.C86_same_outcomes",
    "Mimic.Exchange.C86_as_good_as_new",
    "Mimic.Exchange.C86_stuck"
   ],
   "note": ""
  },
  {
   "property": "C87",
   "status": "proved",
   "theorems": [
    "Mimic.Loosen.C87_only_forbid",
    "Mimic.Loosen.C87_program",
    "Mimic.Loosen.C87_needed"
   ],
   "note": ""
  },
  {
   "property": "C88",
   "status": "proved",
   "theorems": [
    "Mimic.Several.C88_distribution",
    "Mimic.Several.C88_fulfils",
    "Mimic.Several.C88_history",
    "Mimic.Several.C88_exchange",
    "Mimic.Several.C88_runs",
    "Mimic.Several.C88_needed"
   ],
   "note": ""
  },
  {
   "property": "C89",
   "status": "proved",
   "theorems": [
    "Mimic.Compare.C89_calls",
    "Mimic.Compare.C89_call_reports",
    "Mimic.Compare.C89_expectation_reports",
    "Mimic.Compare.C89_match_reports",
    "Mimic.Compare.C89_equivalence",
    "Mimic.Compare.C89_reported",
    "Mimic.Compare.C89_reported_values",
    "Mimic.Compare.C89_location_text",
    "Mimic.Compare.C89_texts",
    "Mimic.Compare.C89_match_text",
    "Mimic.Compare.C89_same_values",
    "Mimic.Compare.C89_same_objects",
    "Mimic.Compare.C89_same_text"
   ],
   "note": "The witnesses C89_same_values, C89_same_objects and C89_same_text show that nothing more can be concluded."
  },
  {
   "property": "C90",
   "status": "proved",
   "theorems": [
    "Mimic.Memory.C90_as_if",
    "Mimic.Memory.C90_plenty",
    "Mimic.Memory.C90_call",
    "Mimic.Memory.C90_terminates",
    "Mimic.Memory.C90_answer",
    "Mimic.Memory.C90_sound",
    "Mimic.Memory.C90_unexpected",
    "Mimic.Memory.C90_create",
    "Mimic.Memory.C90_blocks",
    "Mimic.Memory.C90_end",
    "Mimic.Memory.C90_end_terminates",
    "Mimic.Memory.C90_drop_terminates",
    "Mimic.Memory.C90_safe",
    "Mimic.Memory.C90_other",
    "Mimic.Memory.C90_blocked"
   ],
   "note": "C90_other and C90_blocked are witnesses for what running out of memory may change."
  },
  {
   "property": "C91",
   "status": "proved",
   "theorems": [
    "Mimic.Answers.C91_same",
    "Mimic.Answers.C91_exact",
    "Mimic.Answers.C91_passes",
    "Mimic.Answers.C91_replace",
    "Mimic.Answers.C91_arguments",
    "Mimic.Answers.C91_conjunction",
    "Mimic.Answers.C91_set",
    "Mimic.Answers.C91_one_mock"
   ],
   "note": ""
  },
  {
   "property": "C92",
   "status": "proved",
   "theorems": [
    "Mimic.Lives.C92_later",
    "Mimic.Lives.C92_earlier",
    "Mimic.Lives.C92_passes",
    "Mimic.Lives.C92_saturated",
    "Mimic.Lives.C92_needed"
   ],
   "note": "C92_needed is the witness that the hypothesis is needed."
  },
  {
   "property": "C93",
   "status": "proved",
   "theorems": [
    "Mimic.Groups.C93_groups",
    "Mimic.Groups.C93_safe",
    "Mimic.Groups.C93_ordered"
   ],
   "note": ""
  },
  {
   "property": "C94",
   "status": "proved",
   "theorems": [
    "Mimic.Ahead.C94_calls",
    "Mimic.Ahead.C94_open",
    "Mimic.Ahead.C94_at_least",
    "Mimic.Ahead.C94_exactly",
    "Mimic.Ahead.C94_own_needed"
   ],
   "note": "C94_own_needed is the witness that the number of calls needs its hypothesis."
  },
  {
   "property": "C95",
   "status": "proved",
   "theorems": [
    "Mimic.Situation.C95_future",
    "Mimic.Situation.C95_program",
    "Mimic.Situation.C95_unresolved"
   ],
   "note": ""
  },
  {
   "property": "C96",
   "status": "proved",
   "theorems": [
    "Mimic.Lenient.C96_less",
    "Mimic.Lenient.C96_needed"
   ],
   "note": "C96_needed is the witness that the hypothesis is needed."
  },
  {
   "property": "C97",
   "status": "proved",
   "theorems": [
    "Mimic.Split.C97_split",
    "Mimic.Split.C97_possible",
    "Mimic.Split.C97_exact"
   ],
   "note": "C97_exact is the witness for the last sentence."
  },
  {
   "property": "C98",
   "status": "partial",
   "theorems": [
    "Mimic.Display.C98_flat_partial",
    "Mimic.Display.C98_explained",
    "Mimic.Display.C98_counted",
    "Mimic.Display.C98_defined",
    "Mimic.Display.C98_returns",
    "Mimic.Display.C98_bound",
    "Mimic.Display.C98_plain",
    "Mimic.Display.C98_relock",
    "Mimic.Display.C98_endless",
    "Mimic.Display.C98_observed",
    "Mimic.Display.C98_exceeded",
    "Mimic.Display.C98_stale",
    "Mimic.Display.C98_relock_ub"
   ],
   "note": "Proved for printers that only call mocks of lower layers and sequences that do not connect layers; the rest is false of the code: C98_exceeded, C98_stale, C98_relock, C98_relock_ub and C98_endless."
  },
  {
   "property": "C99",
   "status": "proved",
   "theorems": [
    "Mimic.Tell.C99_tell",
    "Mimic.Tell.C99_same",
    "Mimic.Tell.C99_both",
    "Mimic.Tell.C99_equivalence"
   ],
   "note": "Full abstraction for declarations whose requirements are satisfied at the end, as all those of the library are; the requirement is stated as a hypothesis (Proper)."
  }
 ]
}