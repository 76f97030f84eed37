{"id": "C01", "title": "Event life cycle is a legal state machine", "statement": "Event::transition(t) succeeds only along an edge of the NCL event state machine: START only from a non-occurring state, PAUSE only from OCCURRING, RESUME only from PAUSED, STOP and ABORT only from a non-sleeping state. When it returns true the event's state is the target state of that edge (OCCURRING, PAUSED or SLEEPING); when the request is illegal it returns false and nothing in the document changes.", "quantifier": "every event of every document, every reachable presentation state and every transition requested", "why_tests_cant": "the event may belong to a context, a switch or a media and the transition runs arbitrary nested transitions; a test exercises only particular documents", "anchors": ["lib/Event.cpp:Event::transition", "lib/Context.cpp:Context::beforeTransition", "lib/Media.cpp:Media::afterTransition", "lib/Switch.cpp:Switch::beforeTransition"]}
{"id": "C02", "title": "A media has a running player exactly while it is presented", "statement": "At every point between API calls a media object owns a player and has a valid presentation clock if and only if its whole-content (lambda) event is occurring or paused; in particular no call ever uses a player that does not exist.", "quantifier": "every media object and every history of API calls, keys, ticks and end-of-stream notifications", "why_tests_cant": "the null-player dereference is only reachable through particular interleavings of anchors, pauses and links", "anchors": ["lib/Media.cpp:Media::beforeTransition", "lib/Media.cpp:Media::afterTransition", "lib/Media.cpp:Media::doStop", "lib/Media.cpp:Media::sendTick"]}
{"id": "C03", "title": "Anchors live inside their media", "statement": "If a media object is sleeping then every one of its presentation anchors is sleeping; stopping or aborting a media puts all its events (anchors, attributions, selections) to sleep, clears its pending actions and clears its clock.", "quantifier": "every media object with any number of anchors and every history", "why_tests_cant": "needs an invariant over all histories, including stops triggered in the middle of an anchor's own transition", "anchors": ["lib/Object.cpp:Object::doStop", "lib/Media.cpp:Media::afterTransition"]}
{"id": "C04", "title": "Stopping a context stops everything inside it", "statement": "When a context is stopped or aborted, every object below it (at any nesting depth) is sleeping afterwards and no player below it is left running.", "quantifier": "every document tree of any depth and width, every reachable state", "why_tests_cant": "depth and mixture of nested contexts, switches and medias are unbounded; the failing combination (a switch started through a switchPort) is rarely written in a test", "anchors": ["lib/Context.cpp:Context::beforeTransition", "lib/Switch.cpp:Switch::beforeTransition"]}
{"id": "C05", "title": "Pausing and resuming a composition reaches the running content", "statement": "PAUSE on an occurring composition pauses all occurring content below it and RESUME resumes exactly that content; after RESUME, STOP still stops it.", "quantifier": "every document tree, every reachable state", "why_tests_cant": "the content of the tree is unbounded and the property relates three successive operations", "anchors": ["lib/Context.cpp:Context::beforeTransition", "lib/Switch.cpp:Switch::beforeTransition", "lib/Media.cpp:Media::beforeTransition"]}
{"id": "C06", "title": "A context counts exactly its awake children", "statement": "The number of awake children a context records equals the number of its child objects that have been started and not yet stopped, so the context ends by itself at the first tick at which no child is awake and never while a child is still being presented.", "quantifier": "every context and every history of starts, pauses, resumes, stops and aborts of its children", "why_tests_cant": "a counter drift appears only after particular sequences (for instance start of a paused child) and shows up only at the end of the presentation", "anchors": ["lib/Object.cpp:Object::doStart", "lib/Object.cpp:Object::doStop", "lib/Context.cpp:Context::sendTick", "lib/Context.cpp:Context::incAwakeChildren"]}
{"id": "C07", "title": "End of document", "statement": "Formatter::sendTick and Formatter::sendKey return true exactly when the formatter was playing and the body was not sleeping at the moment of the call; the first call after the body went to sleep stops the formatter (state STOPPED) and returns false, as does every later call until start succeeds again.", "quantifier": "every history of API calls", "why_tests_cant": "property of all call histories", "anchors": ["lib/Formatter.cpp:Formatter::sendTick", "lib/Formatter.cpp:Formatter::sendKey", "lib/Formatter.cpp:_GINGA_CHECK_EOS"]}
{"id": "C08", "title": "Formatter state machine", "statement": "start succeeds only in state STOPPED and a successful start leaves the formatter PLAYING with a document; start in PLAYING returns false and changes nothing; stop returns true exactly when the formatter was not STOPPED and leaves it STOPPED without document; a formatter is PLAYING exactly when it holds a document.", "quantifier": "every sequence of start, stop, sendKey, sendTick, resize and option calls", "why_tests_cant": "property of all call histories", "anchors": ["lib/Formatter.cpp:Formatter::start", "lib/Formatter.cpp:Formatter::stop"]}
{"id": "C09", "title": "Links fire exactly the matching actions", "statement": "When a transition of an event succeeds, the actions taken from a context's links are exactly those of the links that have a condition naming that event and that transition whose predicate (if any) holds; disabled links contribute nothing; actions without delay run immediately and actions with a delay are queued in the context for the current context time plus the delay.", "quantifier": "every set of links, conditions, predicates and every state", "why_tests_cant": "links, conditions and actions are arbitrary in number; the claim is an equality of sets for all of them", "anchors": ["lib/Document.cpp:Document::evalActionInContext", "lib/Document.cpp:Document::evalAction"]}
{"id": "C10", "title": "Actions of one link run in document order", "statement": "The immediate actions triggered by one satisfied condition of a link run in the order in which they are written in the link, each one together with everything it triggers before the next one starts.", "quantifier": "every link and every state", "why_tests_cant": "needs all links of any length, with arbitrary nested consequences", "anchors": ["lib/Document.cpp:Document::evalActionInContext", "lib/Document.cpp:Document::evalAction"]}
{"id": "C11", "title": "Delayed actions are never early, never repeated and never lost", "statement": "An action queued in an object for time T runs at the first tick of the (occurring) object at which its clock has reached T, never before, exactly once, in queueing order with the other actions due at that tick, unless the object is stopped first.", "quantifier": "every queue contents, every sequence of tick lengths and every behaviour of the executed actions", "why_tests_cant": "tick lengths and re-entrancy (actions that pause, stop or restart the object, or queue more actions) are unbounded", "anchors": ["lib/Object.cpp:Object::sendTick", "lib/Object.cpp:Object::addDelayedAction"]}
{"id": "C12", "title": "Starting a context starts its ports", "statement": "Whenever a sleeping context is started directly (not because one of its children was started), each presentation port of the context is started at the next tick of the context.", "quantifier": "every context, every number of ports and every earlier history of the context", "why_tests_cant": "depends on the whole history of earlier starts of the same context", "anchors": ["lib/Context.cpp:Context::afterTransition"]}
{"id": "C13", "title": "A switch presents its first applicable alternative", "statement": "Starting a switch (or one of its switchPorts) starts the first alternative, in rule order, whose rule holds and that is mapped by that interface, and nothing else inside the switch; if no rule holds the start fails and nothing changes.", "quantifier": "every list of rules, every predicate, every state of the properties the rules mention", "why_tests_cant": "the rule list is unbounded and predicates are arbitrary trees over a mutable property store", "anchors": ["lib/Switch.cpp:Switch::beforeTransition", "lib/Document.cpp:Document::evalPredicate"]}
{"id": "C14", "title": "Predicates have their boolean meaning", "statement": "Evaluating a predicate tree yields its truth value: comparisons compare the two (dereferenced) strings, conjunction is true iff all children are, disjunction iff some child is, negation is the opposite of its child; evaluation never changes the document.", "quantifier": "every predicate tree of any depth and every property store", "why_tests_cant": "trees are unbounded", "anchors": ["lib/Document.cpp:Document::evalPredicate", "lib/Predicate.cpp:Predicate::clone"]}
{"id": "C15", "title": "Property references resolve to the current value", "statement": "A string of the form $id.name evaluates to the current value of property name of the object whose id, or else alias, is id (the empty string if the property was never set); any other string, or an unknown id, is reported as not a reference and the result is left untouched.", "quantifier": "every string and every document", "why_tests_cant": "all strings, including names containing further dots and aliases clashing with ids", "anchors": ["lib/Document.cpp:Document::evalPropertyRef", "lib/Document.cpp:Document::getObjectByIdOrAlias", "lib/Object.cpp:Object::getProperty"]}
{"id": "C16", "title": "Attribution sets the property", "statement": "When a set action on a property event succeeds, the property has the (dereferenced) value afterwards and no other property of the object changes; the attribution event ends by itself at the first tick at which the duration of the attribution has elapsed, so that a later set action is effective.", "quantifier": "every object, property, value, duration and state, including sleeping objects", "why_tests_cant": "the failing states (sleeping object, two sets in the same tick) depend on the schedule", "anchors": ["lib/Media.cpp:Media::afterTransition", "lib/Context.cpp:Context::afterTransition", "lib/Object.cpp:Object::setProperty"]}
{"id": "C17", "title": "Keys reach exactly the interested objects", "statement": "A key press or release starts (or stops) exactly the selection events, of objects that are not sleeping, whose expected key is that key, or that expect no particular key while ENTER is pressed and their media has the focus.", "quantifier": "every key, every set of selection events and every focus", "why_tests_cant": "all keys and all combinations of focus and key parameters", "anchors": ["lib/Media.cpp:Media::sendKey", "lib/Formatter.cpp:Formatter::sendKey"]}
{"id": "C18", "title": "Focus follows the settings", "statement": "At a tick of the settings object a pending focus update is performed: the focus becomes the requested index or, if none was requested, the least focus index among the occurring media objects; only the last request before the tick counts; no update happens without a request.", "quantifier": "every set of medias and focus indexes and every history of requests", "why_tests_cant": "all sets of indexes, all orders", "anchors": ["lib/MediaSettings.cpp:MediaSettings::updateCurrentFocus", "lib/MediaSettings.cpp:MediaSettings::sendTick", "lib/MediaSettings.cpp:MediaSettings::scheduleFocusUpdate"]}
{"id": "C19", "title": "A new presentation starts without inherited focus", "statement": "Starting a document after another one was stopped presents it as if it were the first one: no media is focused because of what happened in the previous presentation.", "quantifier": "every pair of documents and every history of the first presentation", "why_tests_cant": "relates two presentations through hidden static state", "anchors": ["lib/Player.cpp:Player::_currentFocus", "lib/Formatter.cpp:Formatter::start"]}
{"id": "C20", "title": "Media anchors are scheduled at their begin and end", "statement": "When a media is started its unlabelled anchors are queued to start at their begin time and stop at their end time; if it is started through an anchor, the clock-relative times of the remaining anchors are shifted by the anchor's begin, anchors already begun are started at once and pending actions outside the anchor's interval are dropped.", "quantifier": "every set of anchors and intervals (including open ended ones) and every chosen anchor", "why_tests_cant": "all sets of intervals", "anchors": ["lib/Media.cpp:Media::afterTransition", "lib/Media.cpp:Media::beforeTransition"]}
{"id": "C21", "title": "Every action terminates", "statement": "Evaluating an action always terminates (the player never hangs in a call).", "quantifier": "every document and state", "why_tests_cant": "termination is not testable", "anchors": ["lib/Document.cpp:Document::evalAction"]}
{"id": "C22", "title": "Documents accepted by the parser do not crash the formatter", "statement": "For every accepted document no sequence of ticks and keys makes an internal assertion fail (abort) or dereferences a missing object.", "quantifier": "every document and every history of ticks, keys and end-of-stream notifications", "why_tests_cant": "assertion failures are reachable only by particular histories", "anchors": ["lib/Media.cpp", "lib/Context.cpp", "lib/Switch.cpp", "lib/Document.cpp"]}
{"id": "C23", "title": "Object identifiers are unique in a document", "statement": "At any time no two objects of a document have the same id and no object's id was the id or alias of an object already present when it was added; adding an object whose id is already an id or alias is refused and changes nothing; looking up an id returns the object with that id; ids take precedence over aliases; each document has exactly one root and at most one settings object, and the medias, contexts and switches partition the objects.", "quantifier": "every sequence of additions and every id or alias", "why_tests_cant": "all histories of additions", "anchors": ["lib/Document.cpp:Document::addObject", "lib/Document.cpp:Document::getObjectByIdOrAlias", "lib/Composition.cpp:Composition::addChild"]}
{"id": "C24", "title": "Events of an object are unique per type and id", "statement": "An object never holds two events of the same type and id, adding an event that already exists is a no-op that keeps the existing one (state, interval, label), adding one never affects lookups of other events, and each object has exactly one whole-content event.", "quantifier": "every sequence of event additions", "why_tests_cant": "all histories of additions", "anchors": ["lib/Object.cpp:Object::addPresentationEvent", "lib/Object.cpp:Object::addAttributionEvent", "lib/Object.cpp:Object::addSelectionEvent", "lib/Object.cpp:Object::getEvent"]}
{"id": "C25", "title": "The full id of an event identifies it", "statement": "Two different events of a document have different full ids.", "quantifier": "every pair of events", "why_tests_cant": "all id strings", "anchors": ["lib/Event.cpp:Event::getFullId"]}
{"id": "C26", "title": "Redraw paints in z order", "statement": "A redraw paints every media object exactly once, in non-decreasing order of (zIndex, zOrder).", "quantifier": "every set of medias and z values", "why_tests_cant": "all permutations", "anchors": ["lib/Formatter.cpp:Formatter::redraw", "lib/Formatter.cpp:zcmp"]}
{"id": "C27", "title": "Options read back what was set", "statement": "For every known option and value of its type that is accepted, getOption returns the last value set and other options are unaffected; unknown names or wrong types terminate the process; width and height are always positive after a successful set.", "quantifier": "every sequence of option calls", "why_tests_cant": "all sequences and values", "anchors": ["lib/Formatter.cpp:OPT_GETSET_DEFN", "lib/Formatter.cpp:Formatter::setOptionSize", "lib/Formatter.cpp:Formatter::resize"]}
{"id": "C28", "title": "User data behaves as a map and frees each value once", "statement": "setData/getData behave as a finite map (setting null removes the key); every value stored with a clean-up function is cleaned up exactly once: when replaced, removed or when the store is destroyed.", "quantifier": "every sequence of operations", "why_tests_cant": "all histories", "anchors": ["lib/aux-ginga.cpp:UserData::setData", "lib/aux-ginga.cpp:UserData::getData"]}
{"id": "C29", "title": "Splitting is the inverse of joining", "statement": "xstrsplit(s, c) returns the maximal c-free pieces of s in order: no piece contains c, and joining them with c gives back s except for one trailing c; the empty string has no pieces.", "quantifier": "every string and separator", "why_tests_cant": "all strings", "anchors": ["lib/aux-ginga.cpp:xstrsplit"]}
{"id": "C30", "title": "List parsing respects its bounds", "statement": "parse_list accepts a string iff its number of pieces is between min and max, and the result has that number of pieces, each without leading or trailing blanks.", "quantifier": "every string, separator and bounds", "why_tests_cant": "all strings", "anchors": ["lib/aux-ginga.cpp:try_parse_list", "lib/aux-ginga.cpp:xstrstrip"]}
{"id": "C31", "title": "Table parsing inverts table printing", "statement": "Parsing the textual form {k1='v1',...} of a finite table gives back the table; malformed entries are rejected rather than guessed.", "quantifier": "every table whose keys and values avoid the separators", "why_tests_cant": "all tables", "anchors": ["lib/aux-ginga.cpp:try_parse_table"]}
{"id": "C32", "title": "Time strings denote the time they show", "statement": "For all whole h, m, s with at most 4611686018 seconds (146 years) in total: parsing \"Ns\", \"N\" and \"h:m:s\" yields N seconds, resp. 3600h+60m+s seconds, in nanoseconds; every accepted string consists, up to trailing blanks, of a number, a number followed by s, or three numbers separated by colons, and yields the time it shows; strings with trailing garbage are rejected; the empty string is zero.", "quantifier": "every number of hours, minutes and seconds and every string", "why_tests_cant": "all strings", "anchors": ["lib/aux-ginga.cpp:try_parse_time"]}
{"id": "C33", "title": "Numeric and percent values are clamped", "statement": "parse_percent always yields a value between min and max; p% of base is rounded to the nearest integer before clamping; it is monotone in the numeric value; pixel values are within 0..255 and transparency p% gives opacity 255 - pixel.", "quantifier": "every string, base and bounds with min <= max", "why_tests_cant": "all numbers", "anchors": ["lib/aux-ginga.cpp:parse_percent", "lib/aux-ginga.cpp:parse_pixel", "lib/Player.cpp:Player::doSetProperty"]}
{"id": "C34", "title": "Integer conversions saturate", "statement": "xstrtoint, xstrtoint8, xstrtouint8, ... return the decimal value if representable in the target type and otherwise the nearest bound of the type, for every decimal string.", "quantifier": "every decimal string", "why_tests_cant": "all integers", "anchors": ["lib/aux-ginga.cpp:_GINGA_XSTRTO_DEFN", "lib/aux-ginga.cpp:_GINGA_XSTRTOU_DEFN"]}
{"id": "C35", "title": "Player properties: aliases, defaults and read back", "statement": "Setting a property through an alias has the effect of setting the canonical property; setting the empty string applies the default but reads back as empty; after set, get returns the value given; unknown properties are stored without effect.", "quantifier": "every property name and value", "why_tests_cant": "all names and values", "anchors": ["lib/Player.cpp:Player::setProperty", "lib/Player.cpp:Player::getPlayerProperty", "lib/Player.cpp:Player::resetProperties"]}
{"id": "C36", "title": "The player kind is determined by the mime type", "statement": "For every uri and type the kind of player created depends only on the explicit type or else on the extension after the last dot of the uri; image types get an image (or SVG) player, audio and video the video player, and so on; SVG content is shown by the SVG player.", "quantifier": "every uri and type", "why_tests_cant": "all strings", "anchors": ["lib/Player.cpp:Player::createPlayer", "lib/Player.cpp:Player::getMimeForURI"]}
{"id": "C37", "title": "Compound geometry properties equal their components", "statement": "Setting bounds, location or size to a comma separated list has the same effect as setting left, top, width, height individually to the corresponding components; right and bottom place the media at the given distance from the right and bottom edges for every window size.", "quantifier": "every value and window size, in any order of setting", "why_tests_cant": "all values and orders", "anchors": ["lib/Player.cpp:Player::doSetProperty"]}
{"id": "C38", "title": "Animations are monotone and reach their target", "statement": "An animated property moves monotonically from its start value to its target, never overshoots, equals the target once the duration has elapsed and is then removed from the schedule, whatever the frame times.", "quantifier": "every start value, target, duration and non-decreasing sequence of frame times", "why_tests_cant": "all frame schedules", "anchors": ["lib/PlayerAnimator.cpp:AnimInfo::init", "lib/PlayerAnimator.cpp:AnimInfo::update", "lib/PlayerAnimator.cpp:PlayerAnimator::update"]}
{"id": "C39", "title": "Animating a compound property animates its components", "statement": "Animating bounds (location, size) schedules one animation per component from the corresponding component of the old value to that of the new value.", "quantifier": "every old and new value", "why_tests_cant": "the code reads past the end of a list, which tests may not observe", "anchors": ["lib/PlayerAnimator.cpp:PlayerAnimator::schedule"]}
{"id": "C40", "title": "The presentation does not depend on memory layout", "statement": "Two runs of the same document with the same inputs make the same transitions in the same order, wherever the allocator places the objects.", "quantifier": "every document, input history and address assignment", "why_tests_cant": "tests run with one address assignment", "anchors": ["lib/Object.h:_events", "lib/Document.h:_objects", "lib/Composition.h:_children"]}
{"id": "C41", "title": "Regions are laid out relative to their parents", "statement": "A region's rectangle is computed from its own attributes relative to its parent's rectangle, nested to any depth, and lies within the screen when all attributes are percentages between 0 and 100 that fit.", "quantifier": "every nesting of regions", "why_tests_cant": "unbounded nesting", "anchors": ["lib/Parser.cpp:ParserState::pushRegion"]}
{"id": "C42", "title": "Imported bases cannot loop", "statement": "A document that imports itself, directly or through other documents, is rejected with an error instead of looping; elements of an imported base are known under alias#id and under no other name.", "quantifier": "every import graph", "why_tests_cant": "all graphs", "anchors": ["lib/Parser.cpp:ParserState::aliasStackPush", "lib/Parser.cpp:ParserState::pushImportBase", "lib/Parser.cpp:ParserState::aliasStackPop"]}
{"id": "C43", "title": "Link parameters override by proximity", "statement": "A $param in a connector is replaced by the bindParam value of the bind if present, else the linkParam value of the link, else the connectorParam-level mapping; text not naming a known parameter is left unchanged.", "quantifier": "every combination of parameter tables", "why_tests_cant": "all combinations", "anchors": ["lib/Parser.cpp:ParserState::resolveParameter"]}
{"id": "C44", "title": "Rules compile to equivalent predicates", "statement": "The predicate built from a (composite) rule or from a connector's assessment statements is true exactly when the rule is, for every property store; rules of a switch keep document order with the default component last.", "quantifier": "every rule tree and property store", "why_tests_cant": "unbounded trees", "anchors": ["lib/Parser.cpp:ParserState::pushRule", "lib/Parser.cpp:ParserState::pushCompoundStatement", "lib/Parser.cpp:ParserState::obtainPredicate", "lib/Parser.cpp:ParserState::solvePredicate", "lib/Parser.cpp:ParserState::popNcl"]}
{"id": "C45", "title": "Identifiers in a source document are unique and well formed", "statement": "The parser accepts a document only if every id attribute is a valid name and no two elements have the same (import-qualified) id; unknown elements, unknown attributes, missing mandatory attributes and misplaced elements are rejected.", "quantifier": "every element tree", "why_tests_cant": "all trees", "anchors": ["lib/Parser.cpp:ParserState::checkNode", "lib/Parser.cpp:ParserState::processNode", "lib/Parser.cpp:xmlIsValidName"]}
{"id": "C46", "title": "Links bind every role", "statement": "A link is accepted only if each role of its connector is bound at least once; each bind yields exactly one condition or action with the connector's transition for that role, conditions and actions being separated by role kind.", "quantifier": "every connector and link", "why_tests_cant": "all combinations", "anchors": ["lib/Parser.cpp:ParserState::popNcl", "lib/Parser.cpp:ParserState::pushSimpleCondition", "lib/Parser.cpp:ParserState::pushBind"]}
{"id": "C47", "title": "A media's own properties override its descriptor's", "statement": "A property given both in a media and in its descriptor or region takes the media's value.", "quantifier": "every media, descriptor and region", "why_tests_cant": "all combinations", "anchors": ["lib/Parser.cpp:ParserState::popNcl"]}
{"id": "C48", "title": "Remote control requests never crash the player", "statement": "Every HTTP request to the web service is answered, and an action request performs exactly the named transition on the named event of the named document.", "quantifier": "every request path and body", "why_tests_cant": "all requests", "anchors": ["lib/WebServices.cpp:cb_apps", "lib/WebServices.cpp:WebServices::machMedia"]}
{"id": "C49", "title": "Names of event types, states and transitions round-trip", "statement": "Each transition's printed name parses back (case-insensitively) to the same transition and distinct states, types and transitions have distinct names.", "quantifier": "all enumerators and all capitalisations", "why_tests_cant": "all capitalisations", "anchors": ["lib/Event.cpp:Event::getEventTransitionAsString", "lib/Event.cpp:Event::getStringAsTransition"]}
{"id": "C50", "title": "Children and parents agree", "statement": "An object is a child of exactly the composition recorded as its parent, adding a child twice is a no-op, and the parent chain of every object ends in the root.", "quantifier": "every sequence of additions", "why_tests_cant": "all histories", "anchors": ["lib/Composition.cpp:Composition::addChild", "lib/Object.cpp:Object::initParent", "lib/Object.cpp:Object::initDocument"]}
{"id": "C51", "title": "The tree of objects is the tree of elements", "statement": "After a document is accepted, every context, every switch and every media element of the body that is neither a reference nor the settings stands for exactly one object of the document, which is found by its id, has its kind and is a child of the object of the element around it (of the root for the body); the root and the settings apart there are no other objects.", "quantifier": "every accepted document, nested to any depth", "why_tests_cant": "all documents", "anchors": ["lib/Parser.cpp: pushContext, pushSwitch, pushMedia, popMedia", "lib/Composition.cpp: addChild", "lib/Document.cpp: addObject"]}
{"id": "C52", "title": "What the parser accepts, the formatter can run", "statement": "The document built from an accepted source satisfies every structural assumption under which the formatter's properties hold: each object has exactly one whole-content event, events belong to the object that lists them, parent and child links agree and form a tree under a root context with a settings object in it, and the alternatives a switch can start are its own components.", "quantifier": "every accepted document, at every allocation of addresses", "why_tests_cant": "all documents", "anchors": ["lib/Formatter.cpp: start", "lib/Parser.cpp: processDoc, popNcl, popSwitch", "lib/Document.cpp: addObject", "lib/Object.cpp: addEvent"]}
{"id": "C53", "title": "The links of a context are those of the document", "statement": "In every accepted document, each link element gives exactly one link of the context (or body) it is in, in document order: the connector it names is the one declared under that name in the document or an imported one; every role and every tested attribute is bound; it has one condition or action for each bind of a role, in the order of the binds, with the transition, key, value, delay and duration of the role (parameters replaced), the predicate that says that the assessment statements around the condition are true of the properties bound, and on the very event that the component and interface of the bind name: the whole content, an area, a property, a switch port, or through ports the event they map to, for elements in scope and for media that only refer to another one.", "quantifier": "every accepted document (any nesting of contexts, any number of links, binds, connectors, imports), at every allocation of addresses", "why_tests_cant": "all documents", "anchors": ["lib/Parser.cpp:ParserState::popNcl", "lib/Parser.cpp:ParserState::resolveInterface", "lib/Parser.cpp:ParserState::resolveComponent", "lib/Parser.cpp:ParserState::obtainPredicate", "lib/Parser.cpp:ParserState::pushLink", "lib/Context.cpp:Context::addLink"]}
{"id": "C54", "title": "An NCL-ltab document becomes one object per table", "statement": "When a document in the NCL-ltab syntax is accepted, its objects are those of its tables: one context, switch or media per table inside the outermost one, of the kind and with the id the table says, with the parent that the nesting of tables says, and no other objects than the root and the settings.", "quantifier": "every accepted NCL-ltab document (any nesting, number of children), at every allocation of addresses", "why_tests_cant": "all documents", "anchors": ["lib/ParserLua.cpp:l_parse_context", "lib/ParserLua.cpp:l_parse_switch", "lib/ParserLua.cpp:l_parse_media", "lib/ParserLua.cpp:process"]}
{"id": "C55", "title": "A media of an NCL-ltab document has the events and properties of its table", "statement": "In an accepted NCL-ltab document each media has one presentation event for its whole content, one for each area of its table with the begin and end the area gives (default: from the start to the end of the content), one attribution event and the value for each property of its table (src resolved as uri, transitions as text), and no others.", "quantifier": "every accepted NCL-ltab document, every media, every event type and id, every property", "why_tests_cant": "all documents", "anchors": ["lib/ParserLua.cpp:l_parse_media", "lib/Media.cpp:addPresentationEvent", "lib/Media.cpp:setProperty"]}
{"id": "C56", "title": "A context of an NCL-ltab document has the ports and links of its table", "statement": "In an accepted NCL-ltab document each context has the ports and links of its table, in order: each condition and action has the transition, predicate, value, delay and duration its table gives and is on the event that its text names (child@area, child.property, child<key>).", "quantifier": "every accepted NCL-ltab document, every context, every port, link, condition and action", "why_tests_cant": "all documents", "anchors": ["lib/ParserLua.cpp:l_parse_port", "lib/ParserLua.cpp:l_parse_link", "lib/ParserLua.cpp:l_parse_predicate", "lib/ParserLua.cpp:getEventStringAsEvent"]}
{"id": "C57", "title": "A switch of an NCL-ltab document has the rules of its table", "statement": "In an accepted NCL-ltab document each switch has the rules of its table, in order: each selects the child with the given id, and its predicate is true under exactly the property values that make the predicate table true.", "quantifier": "every accepted NCL-ltab document, every switch and rule, all values of properties", "why_tests_cant": "all documents, all property values", "anchors": ["lib/ParserLua.cpp:l_parse_switch", "lib/ParserLua.cpp:l_parse_predicate", "lib/Switch.cpp:addRule"]}
{"id": "C58", "title": "Loading an NCL-ltab document never ends the process", "statement": "Opening an NCL-ltab document either succeeds or reports an error: a mistake in the tables never ends or corrupts the process, and a document whose tables are well formed, with distinct ids and references to what exists, is accepted.", "quantifier": "every table handed to the loader", "why_tests_cant": "all documents", "anchors": ["lib/ParserLua.cpp:process", "lib/ParserLua.cpp:l_parse_context", "lib/ParserLua.cpp:l_parse_link", "lib/ParserLua.cpp:getEventStringAsEvent"]}
{"id": "C59", "title": "Objects have the anchors and properties that the document gives them", "statement": "When a document is accepted, the presentation events of a media object are its whole content and exactly one event for each area of the media elements that stand for it (its own element, and those that refer to it), with the label of the area, or with its begin and end times (zero and never when not given); a context or the body has only the event of its whole content. A context or the body has a property event for a name exactly when a property element with this name is inside it. A document with an area that has both a label and an interval, or a time that cannot be read, is rejected.", "quantifier": "every document (XML tree), every media object, context and body, every name", "why_tests_cant": "all documents, including references between media elements in any order", "anchors": ["lib/Parser.cpp:pushArea", "lib/Parser.cpp:pushProperty", "lib/Parser.cpp:pushMedia", "lib/Object.cpp:addPresentationEvent", "lib/Object.cpp:addAttributionEvent"]}
{"id": "C60", "title": "Opening a document ends", "statement": "Whatever the document and the files it imports, opening it comes to an end (accepted, rejected or aborted) and does not loop for ever, as long as there are only finitely many URIs that can be read; imports, references between media, ports, switch ports, nested rules and predicates cannot make it loop.", "quantifier": "every document, every finite set of readable files and every import graph among them, every screen size", "why_tests_cant": "all documents and all import graphs, unbounded nesting and chains of references", "anchors": ["lib/Parser.cpp:ParserState::processNode", "lib/Parser.cpp:ParserState::pushImportBase", "lib/Parser.cpp:ParserState::aliasStackPush", "lib/Parser.cpp:ParserState::resolveInterface", "lib/Parser.cpp:ParserState::popNcl"]}
{"id": "C61", "title": "A media has the values of its descriptor and region", "statement": "When a document that does not use the reserved identifier __settings__ is accepted, a property that a media does not name itself has the value of the descriptor of the media (of the first one, in document order, that has a value, if several elements stand for the media): that of the region of the descriptor if it has one (its rectangle as percentages of the screen, its z-order, its other attributes), else that of the last parameter of the descriptor with this name, else that of the descriptor's attribute. The media has a property event for exactly these names and for those of its property elements; the identifier and the region of the descriptor are not properties of the media.", "quantifier": "every document (XML tree) with its imports, every media, descriptor and region, every property name", "why_tests_cant": "all documents, with any number of references to a media, parameters of a descriptor, nested regions and imported bases", "anchors": ["lib/Parser.cpp:ParserState::popNcl", "lib/Parser.cpp:ParserState::pushDescriptorParam", "lib/Parser.cpp:ParserState::pushRegion", "lib/Media.cpp:setProperty"]}
{"id": "C62", "title": "A transition shows its attributes", "statement": "The properties transIn and transOut of a media whose descriptor names a transition show the type, subtype, duration and other attributes of that transition, each with its value, or its default if it is not given.", "quantifier": "every transition element with any attributes, every order in which the compiler evaluates arguments", "why_tests_cant": "all values and combinations of the ten optional attributes; the outcome depends on the order of evaluation and on buffer sizes", "anchors": ["lib/Parser.cpp:ParserState::popNcl", "lib/aux-ginga.cpp:xstrbuild"]}
{"id": "C63", "title": "Keys of the keyboard reach the document", "statement": "Every key pressed or released in the window of the command ginga, except Escape, F10 and F11, is told to the document exactly once and in order, under the name of the remote-control key it stands for, and a press is told as a press and a release as a release.", "quantifier": "every sequence of keyboard, frame and geometry callbacks, every document, every mapping of key values to names", "why_tests_cant": "all callback sequences interleaved with ticks of any document; the mapping of the names is up to the toolkit", "anchors": ["src/ginga.cpp:keyboard_callback", "lib/Formatter.cpp:Formatter::sendKey"]}
{"id": "C64", "title": "The files of the command line are played one after the other", "statement": "The command ginga opens the files of its command line in order; a file that cannot be opened is counted and skipped, and each document is played until it ends or the user quits, and is then stopped before the next file is opened.", "quantifier": "every list of files, every sequence of callbacks, all well-formed documents", "why_tests_cant": "all command lines and all interleavings of callbacks over several documents", "anchors": ["src/ginga.cpp:main", "src/ginga.cpp:tick_callback"]}
{"id": "C65", "title": "The document is told the time that passes", "statement": "For every frame shown the document is told once the time since it started and the time since the frame before; the second ones add up to the first.", "quantifier": "every sequence of callbacks with frame times that do not decrease, every document", "why_tests_cant": "all sequences of frames interleaved with keys and resizes; the frame counter is up to the toolkit", "anchors": ["src/ginga.cpp:tick_callback"]}
{"id": "C66", "title": "Size option and exit status of the command", "statement": "The option --size is accepted exactly for positive sizes WIDTHxHEIGHT, which the window then has; the exit status is zero exactly if every file could be opened.", "quantifier": "every string given as size, every list of files and sequence of callbacks", "why_tests_cant": "all strings, and any number of files", "anchors": ["src/ginga.cpp:opt_size_cb", "src/ginga.cpp:main"]}
{"id": "C67", "title": "A transition uncovers the media", "statement": "A media with a transition at its start is hidden as a whole at first; with a wipe, what is hidden then only shrinks, in the direction of the wipe and always inside the media, with any other transition its opacity only grows from 0; once the duration of the transition has elapsed the media is shown as without transition.", "quantifier": "every rectangle and opacity, transition type and duration, every sequence of frame times, any other properties animated meanwhile, every rounding of the arithmetic", "why_tests_cant": "all frame schedules and combinations with other animations; what goes wrong is undefined behaviour that a test may not observe", "anchors": ["lib/PlayerAnimator.cpp:PlayerAnimator::scheduleTransition", "lib/PlayerAnimator.cpp:PlayerAnimator::update", "lib/Player.cpp:Player::start"]}
{"id": "C68", "title": "A media object that starts is shown as its document says", "statement": "When a media object starts, every property that its document gives, under the name of the property or its other name, has the value that the text means, and every other property has its default, whatever else is given and whatever was in memory; the rectangle has the width and height given and stands at the distances given from the edges of the window, left and top having precedence over right and bottom.", "quantifier": "every set of properties, every value, every size of the window, every rounding of the arithmetic", "why_tests_cant": "all combinations of properties: some set others, and the order in which they are applied is the alphabetical one", "anchors": ["lib/Media.cpp:Media::beforeTransition", "lib/Player.cpp:Player::setProperty", "lib/Player.cpp:Player::doSetProperty", "lib/Player.cpp:Player::createPlayer"]}
{"id": "C69", "title": "What is on the screen is what is uppermost", "statement": "In every frame, a pixel that no visible media object touches shows the background of the window; otherwise it shows the drawing of the media object that is uppermost in (zIndex, zOrder) among those that touch it: its image as it is where that is opaque, else over its background colour, at its opacity, over what is below; the focused object has its border in its colour and width; a fully transparent object is not seen; nothing of an earlier frame remains.", "quantifier": "every document state and set of media objects, every pixel, every content of images, every resampling and rounding of the drawing library, every earlier content of the screen", "why_tests_cant": "all combinations of overlapping objects, orders and transparencies, for every content", "anchors": ["lib/Formatter.cpp:Formatter::redraw", "lib/Player.cpp:Player::redraw", "lib/Media.cpp:Media::redraw", "lib/PlayerAnimator.cpp:PlayerAnimator::update"]}
{"id": "C70", "title": "What is drawn of a media object is its present content", "statement": "Whenever a frame draws an image, drawing or text, it draws the content its properties now name: the file of its present URI, for a text or an SVG laid out for its present size and with its present text properties, at the present position, size and opacity; it draws nothing else, whatever was set, animated, resized or drawn before.", "quantifier": "every media object of these kinds, every set of properties at its start, every later sequence of property changes (with or without duration), passing of time, frames and resizes of the window, every content of files", "why_tests_cant": "the cached surface must agree with the properties after every history of changes", "anchors": ["lib/Player.cpp:Player::redraw", "lib/PlayerImage.cpp:PlayerImage::reload", "lib/PlayerSvg.cpp:PlayerSvg::reload", "lib/PlayerText.cpp:PlayerText::reload", "lib/PlayerAnimator.cpp:PlayerAnimator::update"]}
{"id": "C71", "title": "A text is shown with the font properties its document gives", "statement": "A text that starts has the font colour, background colour, family, size, style, variant, weight and alignments the document gives, the documented default where none is given; a later change has effect in the next frame and no other event changes them; a value with no meaning is ignored.", "quantifier": "every set of properties, every value, every history of changes, every content of memory when the player is created", "why_tests_cant": "all combinations of properties and the initial contents of memory", "anchors": ["lib/PlayerText.cpp:PlayerText::doSetProperty", "lib/PlayerText.cpp:PlayerText::reload", "lib/PlayerText.cpp:PlayerText::renderSurface", "lib/Player.cpp:Player::initProperties"]}
{"id": "C72", "title": "Ports lead where the document says", "statement": "After a document is accepted, the ports of a context or of the body are its port elements in document order, each leading to the event its component and interface name: the whole component, an area or property of it, a port of a switch, or what a port of an inner context leads to; two ports to one event count once. A switch has exactly the ports its switchPort elements declare, each with what its mappings lead to, in document order. Nothing else has ports.", "quantifier": "every document that is accepted, every context, body and switch of it, every nesting depth, every environment", "why_tests_cant": "all documents, all nestings of contexts and switches and every order of elements", "anchors": ["lib/Parser.cpp:ParserState::popContext", "lib/Parser.cpp:ParserState::popSwitch", "lib/Parser.cpp:ParserState::pushPort", "lib/Parser.cpp:ParserState::pushMapping", "lib/Parser.cpp:ParserState::resolveInterface", "lib/Context.cpp:Context::addPort", "lib/Switch.cpp:Switch::addSwitchPort"]}
{"id": "C73", "title": "What is presented is the document that was written", "statement": "After a document is accepted, the presentation that start begins has for each context, switch and media element one object with its kind, identifier, parent, ports, links, rules, areas and initial property values as written; when it starts, what the ports of the body lead to is queued first for time zero in document order, and the first tick starts exactly these in that order.", "quantifier": "every document that is accepted, every environment, every earlier history of the formatter", "why_tests_cant": "it composes reading and presentation for all documents and all histories", "anchors": ["lib/Formatter.cpp:Formatter::start", "lib/Parser.cpp:Parser::parseFile", "lib/Context.cpp:Context::doTransition", "lib/Document.cpp:Document"]}
{"id": "C74", "title": "Video and sound follow the presentation", "statement": "A video or sound object drives its media pipeline as the presentation says: it plays while the object occurs, is paused while the object is paused and released while it sleeps, with one request per start, pause, resumption and stop, in order; its content is what uri says; setting time or currentTime, and nothing else, moves its position, to the time given or on by the time given; volume, balance, tone, mute and speed take effect; what is shown is the last picture delivered; and the object ends when its stream ends.", "quantifier": "every history of properties, starts, pauses, resumptions, stops, ticks, pipeline messages and pictures, every answer of the pipeline", "why_tests_cant": "the histories and the answers of the pipeline are unbounded, and the pipeline is asynchronous", "anchors": ["lib/PlayerVideo.cpp:PlayerVideo", "lib/PlayerVideo.cpp:PlayerVideo::doSetProperty", "lib/PlayerVideo.cpp:PlayerVideo::cb_Bus", "lib/Player.cpp:Player::start"]}
{"id": "C75", "title": "An NCLua object and its script stay in step", "statement": "While an NCLua object is presented its script is told, in order and each once, of its start, its stop, its labelled anchors, the keys it is sent and the properties that are set; everything sent before a frame or the stop has been delivered by then. What the script posts becomes actions on events of its own object, in order, done at the next tick. The script runs in the directory of its file, and the working directory of the process is otherwise unaffected, for any interleaving of several scripts. A script can be paused and resumed, and no event it posts can end the process.", "quantifier": "every number of NCLua objects, every history and interleaving of starts, stops, frames, keys, anchors and properties, every list of posted events, every document", "why_tests_cant": "the interleavings and the lists of posts are unbounded", "anchors": ["lib/PlayerLua.cpp:PlayerLua", "lib/PlayerLua.cpp:PlayerLua::redraw", "lib/PlayerLua.cpp:PlayerLua::pwdSave", "lib/Object.cpp:Object::getPresentationEventByLabel"]}
{"id": "C76", "title": "A signal generator sounds as its properties say", "statement": "While a signal generator is presented or paused, its source of sound has the frequency and volume that were set last and the wave that was set last by a known name, and those of the document for what was not set (440 Hz, full volume and a sine if the document says nothing); each start, pause, resumption and stop asks the pipeline for one change of state, in order, so that its state is the one of the object; the picture shown is the last one the pipeline delivered; every other property is set as in any player. A generator whose pipeline cannot be started ends.", "quantifier": "every document, every history of property settings, starts, pauses, resumptions, stops, frames and messages, whatever memory contained", "why_tests_cant": "histories and texts of values are unbounded", "anchors": ["lib/PlayerSigGen.cpp:PlayerSigGen::doSetProperty", "lib/PlayerSigGen.cpp:PlayerSigGen::start", "lib/Media.cpp:Media::beforeTransition"]}
{"id": "C77", "title": "A remote player is told what happens to its object", "statement": "Each start, stop, pause, resumption and labelled anchor of an object of remote content is sent, once and in order, to the node of the object (or of the label) of the remote player whose address was set last, and nothing else is sent; read as JSON each message says the action, and that of a start also the place and order that the object has. A remote player that registers later is told of an object that is already presented, values are protected so that every message can be read, and failures are noticed.", "quantifier": "every document, every history of settings, starts, stops, pauses, resumptions, anchors and answers, every text of a property", "why_tests_cant": "histories and property texts are unbounded", "anchors": ["lib/PlayerRemote.cpp:PlayerRemote::sendAction", "lib/PlayerRemote.cpp:PlayerRemote::start", "lib/PlayerRemote.h:REMOTE_PLAYER_JSON_ACT_WITH_PROPS", "lib/WebServices.cpp:WebServices::machMediaThenSetPlayerRemote"]}
{"id": "C78", "title": "What an accepted document names exists", "statement": "In an accepted document each reference names an element of its kind: the connector of a link, the component of each bind, port, mapping and default component, the constituent and the rule of each bind rule, the media element that another refers to (which refers to nothing itself), the descriptor of a media element, the region and the transitions of a descriptor; a component is in the scope of the reference (its composition or a child of it). A document with a reference to something that is not there is rejected.", "quantifier": "every document, with every set of imported documents, and every reference in it", "why_tests_cant": "documents, their nesting and their references are unbounded", "anchors": ["lib/Parser.cpp:ParserState::resolveComponent", "lib/Parser.cpp:ParserState::resolveInterface", "lib/Parser.cpp:ParserState::popNcl", "lib/Parser.cpp:ParserState::eltCacheIndexById"]}
{"id": "C79", "title": "Connectors and rules of an accepted document are well formed", "statement": "In an accepted document, and in every document it imports: each simple condition and each simple action is about one transition of events of one type, a condition with a reserved condition role and an action with a reserved action role having the meaning of the NCL table for it, which its attributes may repeat but not change, and any other role having both given by its attributes; an action that sets a property gives the value; each connector has a condition and an action; each compound statement has a known operator and at least two statements, or exactly one if it is a negation; each rule has a known comparator and each composite rule a known operator.", "quantifier": "every document, with every set of imported documents, and every connector, statement and rule in them", "why_tests_cant": "documents, their nesting and their imports are unbounded", "anchors": ["lib/Parser.cpp:ParserState::pushSimpleCondition", "lib/Parser.cpp:ParserState::popCausalConnector", "lib/Parser.cpp:ParserState::pushCompoundStatement", "lib/Parser.cpp:ParserState::popCompoundStatement", "lib/Parser.cpp:ParserState::pushRule"]}
