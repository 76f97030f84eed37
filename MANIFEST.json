{
 "claims": [
  {
   "property": "C01",
   "status": "proved",
   "theorems": [
    "Ginga.C01_transition_legal",
    "Ginga.C01_history_legal"
   ],
   "note": "for every reachable state, event and transition; and for every transition recorded in the history"
  },
  {
   "property": "C02",
   "status": "proved",
   "theorems": [
    "Ginga.C02_player_iff_presented",
    "Ginga.C02_no_missing_player"
   ],
   "note": "clock part under less than 2^64-1 ns of ticks; undefined behaviour characterised (only compound-property animation, C39)"
  },
  {
   "property": "C03",
   "status": "proved",
   "theorems": [
    "Ginga.C03_anchors_of_sleeping_media",
    "Ginga.C03_stop_effect"
   ],
   "note": ""
  },
  {
   "property": "C04",
   "status": "partial",
   "theorems": [
    "Ginga.C04_stop_partial",
    "Ginga.C04_invariant_partial",
    "Ginga.C04_fails_below_switch"
   ],
   "note": "false for content of switches (proved counter-example C04_fails_below_switch); proved for contexts without switches inside, at any depth"
  },
  {
   "property": "C05",
   "status": "partial",
   "theorems": [
    "Ginga.C05_pause_partial",
    "Ginga.C05_resume_partial",
    "Ginga.C05_stop_partial",
    "Ginga.C05_fails_switch",
    "Ginga.C05_fails_switchPort",
    "Ginga.C05_fails_individual",
    "Ginga.C05_fails_inner"
   ],
   "note": "Contexts without switches inside, nothing inside already paused, no link reacting to pauses/resumes: PAUSE pauses exactly the occurring content, at any depth, with its players; RESUME restores every event state; STOP afterwards leaves nothing. The unrestricted statement is false of the code, with proved counter-examples (switch forgets its alternative; switchPort; individually paused content resumed; running content inside an already paused inner context not paused)."
  },
  {
   "property": "C06",
   "status": "partial",
   "theorems": [
    "Ginga.C06_balance",
    "Ginga.C06_count_partial",
    "Ginga.C06_end_partial",
    "Ginga.C06_fails_restart",
    "Ginga.C06_fails_switch"
   ],
   "note": "Every history: counter = starts - stops of the children (C06_balance). Without switches inside, counter = awake children + restarts of paused children (C06_count_partial) and, with no such restart, a tick ends the context iff no child is awake (C06_end_partial). The full claim fails after START on a paused child and for switches (C06_fails_*)."
  },
  {
   "property": "C07",
   "status": "proved",
   "theorems": [
    "Ginga.C07_tick_and_key",
    "Ginga.C07_stopped_ignores"
   ],
   "note": ""
  },
  {
   "property": "C08",
   "status": "proved",
   "theorems": [
    "Ginga.C08_start",
    "Ginga.C08_stop",
    "Ginga.C08_playing_iff_document"
   ],
   "note": ""
  },
  {
   "property": "C09",
   "status": "proved",
   "theorems": [
    "Ginga.C09_links_fire",
    "Ginga.C09_immediate_iff",
    "Ginga.C09_delayed_iff",
    "Ginga.C09_context_total",
    "Ginga.C09_context",
    "Ginga.C09_clock"
   ],
   "note": ""
  },
  {
   "property": "C10",
   "status": "proved",
   "theorems": [
    "Ginga.C10_depth_first",
    "Ginga.C10_document_order",
    "Ginga.C10_actions_in_order"
   ],
   "note": "actions of one link in document order; actions of later links of the same context are scheduled before those of earlier links"
  },
  {
   "property": "C11",
   "status": "partial",
   "theorems": [
    "Ginga.C11_tick_partial",
    "Ginga.C11_all_due_partial",
    "Ginga.C11_waiting",
    "Ginga.C11_sendTick",
    "Ginga.C11_fails_pause"
   ],
   "note": "due actions that follow, in the same tick, one that pauses the object are lost (proved C11_fails_pause); everything else proved"
  },
  {
   "property": "C12",
   "status": "partial",
   "theorems": [
    "Ginga.C12_start_partial",
    "Ginga.C12_action_partial",
    "Ginga.C12_ports_started_partial",
    "Ginga.C12_body",
    "Ginga.C12_fails_sticky"
   ],
   "note": "Proved for contexts that were not started before in the presentation, and for the body. False in general (C12_fails_sticky): a context once started because of a child keeps the mark and never queues its ports again."
  },
  {
   "property": "C13",
   "status": "partial",
   "theorems": [
    "Ginga.C13_start_partial",
    "Ginga.C13_nothing_else",
    "Ginga.C13_fails_second_interface"
   ],
   "note": "Proved for every call that returns: the first applicable alternative (in rule order, mapped by the interface) is started, nothing else inside the switch changes, and if none applies nothing changes. Starting a second interface of a switch that is already presented terminates the process (C13_fails_second_interface)."
  },
  {
   "property": "C14",
   "status": "partial",
   "theorems": [
    "Ginga.C14_sound_partial",
    "Ginga.C14_eval_partial",
    "Ginga.C14_truth_meaning",
    "Ginga.C14_negation_aborts"
   ],
   "note": "negation predicates abort (proved C14_negation_aborts); boolean meaning for negation-free predicates"
  },
  {
   "property": "C15",
   "status": "proved",
   "theorems": [
    "Ginga.C15_reference",
    "Ginga.C15_alias",
    "Ginga.C15_not_reference"
   ],
   "note": ""
  },
  {
   "property": "C16",
   "status": "partial",
   "theorems": [
    "Ginga.C16_set",
    "Ginga.C16_ends_partial",
    "Ginga.C16_only_set",
    "Ginga.C16_fails_sleeping"
   ],
   "note": "Proved: a successful set gives the property the dereferenced value and changes no other property, and the event ends at the first tick at which it is due while the media is presented. The full claim fails on a sleeping object (C16_fails_sleeping): the event never ends there."
  },
  {
   "property": "C17",
   "status": "proved",
   "theorems": [
    "Ginga.C17_keys",
    "Ginga.C17_awaited_key_constant"
   ],
   "note": "delivery is to the objects awake at the call, one after the other; a media that an earlier reaction put to sleep gets nothing"
  },
  {
   "property": "C18",
   "status": "partial",
   "theorems": [
    "Ginga.C18_update_partial",
    "Ginga.C18_no_request",
    "Ginga.C18_only_by_settings",
    "Ginga.C18_fails_request_lost"
   ],
   "note": "Proved for requests pending at a settings tick; a request can be lost when the settings object restarts (C18_fails_request_lost)."
  },
  {
   "property": "C19",
   "status": "partial",
   "theorems": [
    "Ginga.C19_only_focus_partial",
    "Ginga.C19_fails_inherited_focus"
   ],
   "note": "The focus is the only thing inherited (C19_only_focus_partial) but it is inherited (C19_fails_inherited_focus)."
  },
  {
   "property": "C20",
   "status": "proved",
   "theorems": [
    "Ginga.C20_start",
    "Ginga.C20_through_anchor",
    "Ginga.C20_ended_anchor_restarted",
    "Ginga.C20_anchor_duration_truncated"
   ],
   "note": "Schedule of the anchors for both ways of starting a media. Two consequences of the code worth knowing are also proved: anchors that are already over are started and never stopped (C20_ended_anchor_restarted), and the presentation through an anchor is cut to whole seconds (C20_anchor_duration_truncated)."
  },
  {
   "property": "C21",
   "status": "partial",
   "theorems": [
    "Ginga.C21_terminates_partial",
    "Ginga.C21_call_terminates_partial",
    "Ginga.C21_fails",
    "Ginga.twoMedias_tame",
    "Ginga.hangDoc_not_tame"
   ],
   "note": "C21_terminates_partial: every history of calls terminates (has one outcome other than out-of-fuel from some recursion bound on) for documents of finite nesting depth without cycles of immediate link actions / anchor pauses / switch ports (Tame; relation Leads is a small separate specification). C21_call_terminates_partial: same for one call in any reachable state. C21_fails: without the hypothesis it is false (pause/resume cycle hangs). Missing: only cyclic documents, for which it is false in general."
  },
  {
   "property": "C22",
   "status": "partial",
   "theorems": [
    "Ginga.C22_no_missing_object",
    "Ginga.C22_fails_anchor",
    "Ginga.C22_fails_attribution",
    "Ginga.C22_fails_settings",
    "Ginga.C22_fails_resize",
    "Ginga.C22_resize"
   ],
   "note": "No history on well-formed documents is undefined behaviour (one exception, C39: animating a compound property). Abort-freedom is false of the code; three proved crashing documents."
  },
  {
   "property": "C23",
   "status": "proved",
   "theorems": [
    "Ginga.C23_ids",
    "Ginga.C23_partition",
    "Ginga.C23_add"
   ],
   "note": "For every history of object construction and registration, at every choice of addresses."
  },
  {
   "property": "C24",
   "status": "proved",
   "theorems": [
    "Ginga.C24_unique",
    "Ginga.C24_add",
    "Ginga.C24_new"
   ],
   "note": "For every history; new objects and the settings object have exactly their standard events."
  },
  {
   "property": "C25",
   "status": "partial",
   "theorems": [
    "Ginga.C25_partial",
    "Ginga.C25_fails_lambda",
    "Ginga.C25_fails_lookat",
    "Ginga.C25_fails_dot"
   ],
   "note": "True for plain ids (C25_partial). The full statement is false: proved counterexamples for an anchor called lambda, two look-at events and dots in object ids."
  },
  {
   "property": "C26",
   "status": "proved",
   "theorems": [
    "Ginga.C26_redraw",
    "Ginga.C26_ties"
   ],
   "note": "Every redraw paints each media exactly once in (zIndex, zOrder) order; equal z values are painted in reverse insertion (address) order (C26_ties)."
  },
  {
   "property": "C27",
   "status": "proved",
   "theorems": [
    "Ginga.C27_bool",
    "Ginga.C27_int",
    "Ginga.C27_string",
    "Ginga.C27_unknown",
    "Ginga.C27_accepted",
    "Ginga.C27_history"
   ],
   "note": "For every history of option calls."
  },
  {
   "property": "C28",
   "status": "partial",
   "theorems": [
    "Ginga.C28_map",
    "Ginga.C28_clean",
    "Ginga.C28_fails_null"
   ],
   "note": "Map behaviour and clean-up exactly once for every history in which null is never stored under an absent key; storing null under an absent key is undefined behaviour (C28_fails_null)."
  },
  {
   "property": "C29",
   "status": "proved",
   "theorems": [
    "Ginga.C29_split",
    "Ginga.C29_join",
    "Ginga.C29_empty"
   ],
   "note": ""
  },
  {
   "property": "C30",
   "status": "proved",
   "theorems": [
    "Ginga.C30_parse_list",
    "Ginga.C30_blank"
   ],
   "note": ""
  },
  {
   "property": "C31",
   "status": "partial",
   "theorems": [
    "Ginga.C31_roundtrip",
    "Ginga.C31_lookup",
    "Ginga.C31_reject_braces",
    "Ginga.C31_reject_entry",
    "Ginga.C31_sound",
    "Ginga.C31_fails_lone_quote",
    "Ginga.C31_fails_empty"
   ],
   "note": "Round trip, lookup, rejection and soundness. Two malformed forms break the full statement: a lone quote is accepted as an empty value, and an empty string (or empty value) reads before the string (proved)."
  },
  {
   "property": "C32",
   "status": "proved",
   "theorems": [
    "Ginga.C32_sound",
    "Ginga.C32_complete_seconds",
    "Ginga.C32_complete_hms",
    "Ginga.C32_seconds",
    "Ginga.C32_hms",
    "Ginga.C32_empty",
    "Ginga.C32_garbage",
    "Ginga.C32_fails_negative",
    "Ginga.C32_space",
    "Ginga.C32_digit",
    "Ginga.C32_trailing"
   ],
   "note": "For every floating-point rounding satisfying FP (IEEE round-to-even is one). Negative times are accepted and their conversion is undefined behaviour (C32_fails_negative)."
  },
  {
   "property": "C33",
   "status": "partial",
   "theorems": [
    "Ginga.C33_range",
    "Ginga.C33_pixel",
    "Ginga.C33_nearest",
    "Ginga.C33_monotone",
    "Ginga.C33_fails_wrap",
    "Ginga.C33_fails_half"
   ],
   "note": "Range and monotonicity for every rounding; nearest integer for exact arithmetic. With IEEE doubles 29% of 50 is 14 (C33_fails_half) and large values wrap (C33_fails_wrap)."
  },
  {
   "property": "C34",
   "status": "partial",
   "theorems": [
    "Ginga.C34_signed",
    "Ginga.C34_unsigned",
    "Ginga.C34_no_number",
    "Ginga.C34_types",
    "Ginga.C34_fails_negative"
   ],
   "note": "Signed parsers and unsigned parsers on non-negative input are exact with saturation. Negative input to an unsigned parser gives the maximum instead of the minimum (C34_fails_negative)."
  },
  {
   "property": "C35",
   "status": "proved",
   "theorems": [
    "Ginga.C35_readback",
    "Ginga.C35_alias",
    "Ginga.C35_default",
    "Ginga.C35_names",
    "Ginga.C35_unknown",
    "Ginga.C35_init",
    "Ginga.playerSet_stable"
   ],
   "note": "Base class Player; a new player has the defaults whatever memory contained (C35_init); the names, other names and defaults are spelt out in C35_names."
  },
  {
   "property": "C36",
   "status": "partial",
   "theorems": [
    "Ginga.C36_mime",
    "Ginga.C36_kinds",
    "Ginga.C36_determined",
    "Ginga.C36_fails_svg",
    "Ginga.C36_fails_restart",
    "Ginga.C36_prefix"
   ],
   "note": "The kind is determined by type, extension and remoteness; the SVG part of the claim is false: no request ever creates an SVG player (C36_fails_svg). Also the type guessed at the first start stays when the content is changed (C36_fails_restart)."
  },
  {
   "property": "C37",
   "status": "partial",
   "theorems": [
    "Ginga.C37_compound",
    "Ginga.C37_reject",
    "Ginga.C37_right",
    "Ginga.C37_bottom_partial",
    "Ginga.C37_resize",
    "Ginga.C37_fails_bottom",
    "Ginga.C37_fails_resize",
    "Ginga.C37_int"
   ],
   "note": "Compound properties equal their components; right keeps its distance after any settings; bottom only for values in pixels: percentages are taken of the media's own height (C37_fails_bottom). After a resize (C37_resize) medias without geometry properties keep the old size (C37_fails_resize)."
  },
  {
   "property": "C38",
   "status": "partial",
   "theorems": [
    "Ginga.C38_monotone",
    "Ginga.C38_reaches",
    "Ginga.C38_no_abort",
    "Ginga.C38_fails_transparency",
    "Ginga.C38_fails_background"
   ],
   "note": "Positions and sizes: monotone, no overshoot (every rounding), at the target once the duration has elapsed (IEEE: fewer than 2^20 frames), removed (exact arithmetic), no assertion ever fails. False for transparency and background (C38_fails_*). Wipes: C67."
  },
  {
   "property": "C39",
   "status": "partial",
   "theorems": [
    "Ginga.C39_fails"
   ],
   "note": "The claim is false of the code: proved that no compound animation is ever scheduled (undefined behaviour for well-formed values)."
  },
  {
   "property": "C40",
   "status": "partial",
   "theorems": [
    "Ginga.C40_fails_key_order"
   ],
   "note": "False of the code: two documents that differ only by the addresses given to objects and events react differently to the same key. Proved counter-example; no positive theorem yet."
  },
  {
   "property": "C41",
   "status": "partial",
   "theorems": [
    "Ginga.C41_layout",
    "Ginga.C41_inside",
    "Ginga.C41_nested",
    "Ginga.C41_percent",
    "Ginga.C41_screen_partial",
    "Ginga.C41_fails_rounding",
    "Ginga.C41_fails_right",
    "Ginga.C41_fails_left"
   ],
   "note": "Every accepted document is laid out as specified, any nesting, imports included (C41_layout); percentages that fit keep each region within its parent up to one rounding pixel per nesting level (C41_percent, C41_screen_partial). The claim itself is false: rounding, left+width+right, and left without width put regions outside the screen (C41_fails_*)."
  },
  {
   "property": "C42",
   "status": "partial",
   "theorems": [
    "Ginga.C42_circular",
    "Ginga.C60_ends",
    "Ginga.C42_lookup_partial",
    "Ginga.C42_fails_param",
    "Ginga.C60_fails_spelling",
    "Ginga.C42_imports",
    "Ginga.C42_prefix"
   ],
   "note": "C42_circular; C60_ends (it ends when finitely many URIs can be read); C42_lookup_partial excludes documents with a descriptorParam named id, for which the claim is false (C42_fails_param). Circular imports under new spellings of the same path are not recognized (C60_fails_spelling). C42_imports and C42_prefix state what is imported, and under which names, without the parser."
  },
  {
   "property": "C43",
   "status": "partial",
   "theorems": [
    "Ginga.C43_plain",
    "Ginga.C43_nearest",
    "Ginga.C43_ghost",
    "Ginga.C43_bind_wins",
    "Ginga.C43_link_second",
    "Ginga.C43_action",
    "Ginga.C43_fails_unknown",
    "Ginga.C43_lookup",
    "Ginga.C43_store"
   ],
   "note": "Resolution by proximity holds; an unknown parameter becomes the empty string instead of being left unchanged (C43_fails_unknown)."
  },
  {
   "property": "C44",
   "status": "partial",
   "theorems": [
    "Ginga.C44_switch",
    "Ginga.C53_all",
    "Ginga.C44_fails_empty",
    "Ginga.C44_comparators"
   ],
   "note": "Rules of switches: in every accepted document (imports included) the rules of the object of a switch are its bind rules in document order and then its default components, each with a predicate true exactly when the rule element it names is (falsum for an empty composite rule, and C44_fails_empty proves that this differs from the meaning of the same rule inside another one), and each leads to the component it names: a child with an object of its own, the switch itself, or a child that shares the object of another element or of the settings (provided that its identifier is not one of the two the parser uses itself, and, for a settings element, that no media element refers to it; that no two elements share it and that a referring element is not itself referred to is proved, not assumed). Conditions of links: C53_all (part LinkMeans of ActOf) says that the predicate is true exactly when all assessment statements of the compound conditions around the condition are, for every property store. Partial because the claim is false of empty composite rules."
  },
  {
   "property": "C45",
   "status": "proved",
   "theorems": [
    "Ginga.C45_accepted",
    "Ginga.C45_complete",
    "Ginga.C45_grammar",
    "Ginga.C45_name"
   ],
   "note": "C45_accepted: every accepted document (with imports) is well formed, ids unique and valid; C45_complete: the syntax check rejects nothing else. C45_generated_clash and C45_reserved_crash: generated link ids and internal object ids are not protected."
  },
  {
   "property": "C46",
   "status": "proved",
   "theorems": [
    "Ginga.C46_link",
    "Ginga.C46_roles",
    "Ginga.C46_words"
   ],
   "note": "For every link element: all roles bound, one condition or action per bind."
  },
  {
   "property": "C47",
   "status": "proved",
   "theorems": [
    "Ginga.C47_last",
    "Ginga.C47_own",
    "Ginga.C47_settings"
   ],
   "note": "Every accepted document: a property named by a property element of a media element, or of a media element that refers to it, has after loading the last value that those elements give it in document order, whatever the descriptor and its region say (C47_last; C47_own is the case of one value; a property named without a value stays unset). Settings nodes: the value comes from a settings node or a reference to one, never from a descriptor, and is the last one if nothing refers to a settings node (C47_settings; references that come before the node may be lost by the code, shown by an example)."
  },
  {
   "property": "C48",
   "status": "partial",
   "theorems": [
    "Ginga.C48_effect",
    "Ginga.C48_register",
    "Ginga.C48_answered_partial",
    "Ginga.C48_fails_stopped",
    "Ginga.C48_fails_path",
    "Ginga.C48_fails_body",
    "Ginga.C48_fails_select",
    "Ginga.C48_fails_register"
   ],
   "note": "Effect of every answered request proved (C48_effect, C48_register). Every request answered is false: no document, incomplete path, non-object JSON, unknown selection event end the process (C48_fails_*); all other action requests are answered (C48_answered_partial)."
  },
  {
   "property": "C49",
   "status": "proved",
   "theorems": [
    "Ginga.C49_roundtrip",
    "Ginga.C49_names"
   ],
   "note": "Names of transitions, states and types."
  },
  {
   "property": "C50",
   "status": "proved",
   "theorems": [
    "Ginga.C50_tree",
    "Ginga.C50_add",
    "Ginga.C50_fails_direct"
   ],
   "note": "For documents built with addChild only, as the parser does; with a direct Document::addObject the chain claim is false (C50_fails_direct)."
  },
  {
   "property": "C51",
   "status": "proved",
   "theorems": [
    "Ginga.C51_elements",
    "Ginga.C51_objects",
    "Ginga.C51_roots"
   ],
   "note": "every accepted document: elements to objects, objects to elements, root and settings; addresses arbitrary but distinct"
  },
  {
   "property": "C52",
   "status": "partial",
   "theorems": [
    "Ginga.C52_wf_noport",
    "Ginga.C52_wf_partial",
    "Ginga.C52_fails_self"
   ],
   "note": "proved for every accepted document without switchPort elements, and with them provided the rules of a switch choose its components or nothing a port leads to; a rule and a port may both name the switch itself (C52_fails_self)"
  },
  {
   "property": "C53",
   "status": "proved",
   "theorems": [
    "Ginga.C53_all",
    "Ginga.C44_comparators",
    "Ginga.C46_roles",
    "Ginga.C46_words",
    "Ginga.C53_reference",
    "Ginga.C53_full_id"
   ],
   "note": "Every accepted document, all addresses: for each context, and for the body, the links of its object correspond one to one, in order, to its link elements (C53_all with LinkOf/ActOf/EventOf in Proofs/LinkEnd and Proofs/Events as the specification on the XML tree). The event of a condition or action is fixed whenever the bind names something in scope in the sense of EventOf."
  },
  {
   "property": "C54",
   "status": "proved",
   "theorems": [
    "Ginga.C54"
   ],
   "note": "every accepted document, all nestings and allocations"
  },
  {
   "property": "C55",
   "status": "proved",
   "theorems": [
    "Ginga.C55"
   ],
   "note": "exactly the events and values of the table; of two areas with one name the first counts, of two values of a property the last"
  },
  {
   "property": "C56",
   "status": "partial",
   "theorems": [
    "Ginga.C56_partial",
    "Ginga.C56_event",
    "Ginga.eventText_unique",
    "Ginga.C56_keys",
    "Ginga.C56_fails_key"
   ],
   "note": "proved: ports and links in order with transition, predicate, value, delay, duration and the event of the child that the text names. The full claim is false of the code: selection events are never created, so a condition on child<key> has no event (C56_keys for all documents, C56_fails_key an accepted document)."
  },
  {
   "property": "C57",
   "status": "proved",
   "theorems": [
    "Ginga.C57",
    "Ginga.truth_unique"
   ],
   "note": "all rules and all property values; truth_unique: a predicate table has one truth value"
  },
  {
   "property": "C58",
   "status": "partial",
   "theorems": [
    "Ginga.C58_partial",
    "Ginga.C58_fails_tag",
    "Ginga.C58_fails_id",
    "Ginga.C58_fails_top",
    "Ginga.C58_fails_port",
    "Ginga.C58_fails_child",
    "Ginga.C58_fails_link",
    "Ginga.C58_fails_trans",
    "Ginga.C58_fails_prop",
    "Ginga.C58_fails_transition",
    "Ginga.C58_fails_rule",
    "Ginga.C58_fails_operator",
    "Ginga.C58_case"
   ],
   "note": "proved: every well-formed document (DocFine, an independent description) is accepted, at every allocation. The rest of the claim is false of the code: eleven kinds of mistakes end the process or use a null pointer (C58_fails_*)."
  },
  {
   "property": "C59",
   "status": "proved",
   "theorems": [
    "Ginga.C59_media",
    "Ginga.C59_area",
    "Ginga.C59_context",
    "Ginga.C59_body",
    "Ginga.C59_wellformed"
   ],
   "note": "Presentation events of media, contexts and the body; property events of contexts and the body; times and labels of areas. The property events of media objects also come from descriptors (C61)."
  },
  {
   "property": "C60",
   "status": "proved",
   "theorems": [
    "Ginga.C60_ends",
    "Ginga.C60_fails_spelling"
   ],
   "note": "C60_ends. C60_fails_spelling: the hypothesis on files is needed: paths are not normalized, so that a document importing itself as ./self.ncl is not seen to be circular (until the system bounds the path)."
  },
  {
   "property": "C61",
   "status": "proved",
   "theorems": [
    "Ginga.C61_media",
    "Ginga.C61_descriptor",
    "Ginga.C61_descriptor_imported",
    "Ginga.C61_region",
    "Ginga.C61_region_imported",
    "Ginga.C61_one",
    "Ginga.C61_one_imported",
    "Ginga.C61_fails_settings",
    "Ginga.C61_percent",
    "Ginga.C61_percent_whole"
   ],
   "note": "C61_media: value and property event of every name, in terms of the final attributes of the descriptors; C61_descriptor: those of a descriptor, in terms of its region, parameters and attributes; C61_region: those of a region (layout of C41); C61_one: all together for media with one descriptor; the _imported forms say the same of descriptors and regions of imported documents, known under their aliases. Documents with a descriptorParam named id look descriptors up by the changed identifier (C42_fails_param): the last clause of C61_descriptor excludes them. With the reserved identifier __settings__ the claim is false (C61_fails_settings)."
  },
  {
   "property": "C62",
   "status": "partial",
   "theorems": [
    "Ginga.C62_shown_partial",
    "Ginga.C62_fails_two",
    "Ginga.C62_fails_document",
    "Ginga.C62_fails_dangling",
    "Ginga.C62_read"
   ],
   "note": "Right if the attributes that are given have one value, e.g. if only one is given (C62_shown_partial); false otherwise: lib/Parser.cpp:2387-2426 reads all of them into one string and builds the text from pointers to it (C62_fails_two for every order of evaluation, C62_fails_document), and values of more than 15 bytes leave dangling pointers (C62_fails_dangling)."
  },
  {
   "property": "C63",
   "status": "partial",
   "theorems": [
    "Ginga.C63_exact_partial",
    "Ginga.C63_fails_direction",
    "Ginga.C63_fails_unnamed",
    "Ginga.C63_fails_document"
   ],
   "note": "Exact list of key calls proved for every callback sequence; the claim itself is false: the direction is swapped for every key, and a key value without a name is undefined behaviour."
  },
  {
   "property": "C64",
   "status": "partial",
   "theorems": [
    "Ginga.C64_order_partial",
    "Ginga.C64_ended",
    "Ginga.C64_never_again",
    "Ginga.C64_fails_hang",
    "Ginga.C64_fails_twice",
    "Ginga.C64_until",
    "Ginga.C64_settings"
   ],
   "note": "Order, stop before next start and count of failures proved for every run that comes to its end; the claim is false: once a document has ended by itself the tick callback is gone and the next document never advances."
  },
  {
   "property": "C65",
   "status": "partial",
   "theorems": [
    "Ginga.C65_clock_partial",
    "Ginga.C65_sum",
    "Ginga.C65_fails_first",
    "Ginga.C65_fails_second"
   ],
   "note": "Exact list of ticks proved when the first frame has number 0; the claim is false for other windows and for the second document."
  },
  {
   "property": "C66",
   "status": "partial",
   "theorems": [
    "Ginga.C66_size_partial",
    "Ginga.C66_fails_size",
    "Ginga.C66_status_partial",
    "Ginga.C66_fails_status"
   ],
   "note": "Every size of digits is read exactly (up to the limit of int) and the exit status is right for up to 255 files; the claim is false: negative sizes and trailing text are accepted, and 256 failures give status 0."
  },
  {
   "property": "C67",
   "status": "partial",
   "theorems": [
    "Ginga.C67_bar_start",
    "Ginga.C67_bar",
    "Ginga.C67_bar_end",
    "Ginga.C67_bar_defined",
    "Ginga.C67_fade",
    "Ginga.C67_fade_end",
    "Ginga.C67_fails_diagonal",
    "Ginga.C67_fails_diagonal_run",
    "Ginga.C67_fails_named",
    "Ginga.C67_fails_move",
    "Ginga.C67_names"
   ],
   "note": "Bar wipes (both directions) and fades proved for every history of frames and other animations and every rounding, with defined behaviour throughout. The claim is false of diagonal wipes (they never end; undefined behaviour), of properties named like a wipe, and of a media that moves meanwhile."
  },
  {
   "property": "C68",
   "status": "partial",
   "theorems": [
    "Ginga.C68_values",
    "Ginga.C68_type",
    "Ginga.C68_rectangle",
    "Ginga.C68_fails_right",
    "Ginga.C68_fails_bounds",
    "Ginga.C68_fails_empty",
    "Ginga.C68_fails_text"
   ],
   "note": "All values and the rectangle are as the document says for every set of properties (C68_values, C68_type, C68_rectangle); precedence of left over right, of single over compound properties, and texts that mean nothing are false of the code (C68_fails_*)."
  },
  {
   "property": "C69",
   "status": "partial",
   "theorems": [
    "Ginga.C69_drawn",
    "Ginga.C69_ground",
    "Ginga.C69_above",
    "Ginga.C69_image",
    "Ginga.C69_plain",
    "Ginga.C69_focus",
    "Ginga.C69_transparent",
    "Ginga.C69_fails_background",
    "Ginga.C69_fails_width",
    "Ginga.C69_fails_wipe",
    "Ginga.C69_fails_seen"
   ],
   "note": "True part: C69_ground, C69_above, C69_image, C69_plain, C69_focus, C69_transparent. False of the code: the opacity of the background colour is ignored (C69_fails_background), so is focusBorderWidth (C69_fails_width), and a wipe erases what is below the media (C69_fails_wipe, C69_fails_seen)."
  },
  {
   "property": "C70",
   "status": "partial",
   "theorems": [
    "Ginga.C70_current",
    "Ginga.C70_fails_uri",
    "Ginga.C70_fails_missing",
    "Ginga.C70_fails_shown",
    "Ginga.C70_resize"
   ],
   "note": "C70_current: every frame draws exactly the present content, for every history that does not set uri and, for texts and SVG, does not animate width or height. The rest of the claim is false of the code, as C70_fails_uri (a changed URI is not shown), C70_fails_shown and C70_fails_missing (a missing file ends the process) prove."
  },
  {
   "property": "C71",
   "status": "partial",
   "theorems": [
    "Ginga.C71_values",
    "Ginga.C71_set",
    "Ginga.C71_fails_background",
    "Ginga.C71_fails_variant",
    "Ginga.C71_fails_value",
    "Ginga.C71_fails_memory"
   ],
   "note": "C71_values (start) and C71_set (every later event) are the positive part. False of the code and proved so: without fontBgColor the background is whatever was in memory (C71_fails_background, C71_fails_memory), fontVariant is ignored (C71_fails_variant), values with no meaning end the process (C71_fails_value)."
  },
  {
   "property": "C72",
   "status": "partial",
   "theorems": [
    "Ginga.C72_context",
    "Ginga.C72_bodies",
    "Ginga.C72_body",
    "Ginga.C72_switch",
    "Ginga.C72_none",
    "Ginga.C72_once",
    "Ginga.C72_whole",
    "Ginga.C72_refer"
   ],
   "note": "Proved for every accepted document: ports of contexts, of the body elements, however many there are (C72_bodies), of switches, and of nothing else; the component of a port may be an element with an object of its own or a media element that shares the object of another element or of the settings (PortTo, ShareOf; C72_refer says such an identifier denotes the shared object), provided that its identifier is not one of the two the parser uses itself, and, for a settings element, that no media element refers to it; that no two elements share it and that a referring element is not itself referred to is proved, not assumed. Missing: an interface name that is both a property and an area of the object it is looked up in, and components of settings elements that are themselves referred to."
  },
  {
   "property": "C73",
   "status": "partial",
   "theorems": [
    "Ginga.C73_unmarked",
    "Ginga.C73_element",
    "Ginga.C73_context",
    "Ginga.C73_bodies",
    "Ginga.C73_body",
    "Ginga.C73_switch",
    "Ginga.C73_values",
    "Ginga.C73_event",
    "Ginga.C73_area",
    "Ginga.C73_start",
    "Ginga.C73_first_tick"
   ],
   "note": "Objects, ports, links, rules, areas and initial values: for every accepted document, with the restrictions of C44, C47 and C72 on reference elements. The start and the first tick: for documents that are well formed (C52), with one body or several (C73_bodies), when the body is not stopped by the start itself and makes no transition in the tick (C11_fails_pause shows why)."
  },
  {
   "property": "C74",
   "status": "partial",
   "theorems": [
    "Ginga.C74_requests",
    "Ginga.C74_content",
    "Ginga.C74_state",
    "Ginga.C74_picture",
    "Ginga.C74_position",
    "Ginga.C74_seek",
    "Ginga.C74_seek_forward",
    "Ginga.C74_fails_end",
    "Ginga.C74_fails_sound",
    "Ginga.C74_fails_early",
    "Ginga.C74_fails_anchor",
    "Ginga.C74_fails_stack",
    "Ginga.C74_fails_speed",
    "Ginga.C74_fails_error",
    "Ginga.C74_fails_back",
    "Ginga.C74_fails_text"
   ],
   "note": "Requests, content, state, picture, position and both ways of moving it hold for every history and all answers of the pipeline. The rest is false of the code, and its negation is proved: the end of the stream is not noticed (the handler is commented out), the elements for sound are never created (undefined unless memory is zero, then without effect), a position given before the pipeline is prepared - by the document, or by the start of an anchor - is put off and never done, -T and a speed other than 0 are undefined, and an error of the pipeline ends the process."
  },
  {
   "property": "C75",
   "status": "partial",
   "theorems": [
    "Ginga.C75_told",
    "Ginga.C75_closed",
    "Ginga.C75_drawn",
    "Ginga.C75_directory",
    "Ginga.C75_home",
    "Ginga.C75_posts",
    "Ginga.C75_next_tick",
    "Ginga.C75_property",
    "Ginga.C75_fails_pause",
    "Ginga.C75_fails_post",
    "Ginga.C75_fails_home"
   ],
   "note": "What a script is told, when it is delivered, what becomes of its posts, and its directory hold for every history of any number of scripts; the directory of the process too, if nothing else changes it. False of the code, and proved so: pausing or resuming a script ends the process, so does a post with an unknown label, property or action, and if another part of the process changes the working directory the next frame of a script changes it back. Posts are done at the next tick unless the object makes a transition as a whole meanwhile (C11)."
  },
  {
   "property": "C76",
   "status": "partial",
   "theorems": [
    "Ginga.C76_sound",
    "Ginga.C76_document",
    "Ginga.C76_requests",
    "Ginga.C76_state",
    "Ginga.C76_picture",
    "Ginga.C76_rest",
    "Ginga.C76_fails_end",
    "Ginga.C76_fails_start",
    "Ginga.C76_fails_error",
    "Ginga.C76_waves"
   ],
   "note": "Sound, document, state, requests, picture and the other properties hold for every history. The last sentence is false of the code (C76_fails_end, C76_fails_start: PlayerSigGen::start sets the end and Player::start takes it back); an error of the pipeline ends the process (C76_fails_error)."
  },
  {
   "property": "C77",
   "status": "partial",
   "theorems": [
    "Ginga.C77_told",
    "Ginga.C77_start",
    "Ginga.C77_document",
    "Ginga.C77_fails_unknown",
    "Ginga.C77_fails_quote",
    "Ginga.C77_fails_answer",
    "Ginga.C77_states"
   ],
   "note": "The first sentence is proved for every document and history (C77_told, C77_document, C77_start; texts without quotes, backslashes and control characters are read back exactly). The second sentence is false of the code and proved so (C77_fails_unknown, C77_fails_quote, C77_fails_answer)."
  },
  {
   "property": "C78",
   "status": "partial",
   "theorems": [
    "Ginga.C78_media",
    "Ginga.C78_descriptor",
    "Ginga.C78_descriptor_imported",
    "Ginga.C78_link",
    "Ginga.C78_rule",
    "Ginga.C78_port",
    "Ginga.C78_fails_scope",
    "Ginga.C78_fails_reserved",
    "Ginga.C78_fails_import"
   ],
   "note": "Proved for every reference: the connector of a link and the component of each bind; the component of each port and mapping; rule, constituent and default component of a switch; refer and descriptor of a media element; region and transitions of a descriptor, of the main document or of any imported one (C78_descriptor_imported; the transitions of an imported one are looked for without its aliases, so that it cannot use those it was written with: C78_fails_import). Partial because the scope part is false of the code: the map of references is global, so a component may be outside the composition that names it (C78_fails_scope), and the parser's own names are accepted although no element has them (C78_fails_reserved)."
  },
  {
   "property": "C79",
   "status": "proved",
   "theorems": [
    "Ginga.C79_role",
    "Ginga.RoleMeans.uniq",
    "Ginga.C79_connector",
    "Ginga.C79_statement",
    "Ginga.C79_rule",
    "Ginga.C79_comparator"
   ],
   "note": "All parts, for the document and everything it imports; the tables of roles are literal and independent of the parser's."
  }
 ]
}