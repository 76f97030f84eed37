{
 "C01": [
  "Engine `transition`, whole API",
  "case analysis on the object kind, induction on the recursion bound; history log invariant over all API histories"
 ],
 "C02": [
  "Engine, Formatter",
  "invariant `Good` kept by every elementary step (`Proofs/Steps`), weakest-precondition calculus (`Proofs/Wp`) through the open recursion, lifted to API histories (`Proofs/Tick`)"
 ],
 "C03": [
  "Engine",
  "same invariant"
 ],
 "C04": [
  "Engine",
  "tree invariant `CtxInv` + induction on `Below`; counter-example document for switches"
 ],
 "C05": [
  "Engine",
  "relation `Turned` between the states before and after PAUSE/RESUME, induction on the recursion bound (`Proofs/Pause`); counter-examples"
 ],
 "C06": [
  "Engine",
  "ghost balance in the history log, induction; counter-examples"
 ],
 "C07": [
  "Formatter",
  "case analysis on the calls, histories"
 ],
 "C08": [
  "Formatter",
  "invariant over histories"
 ],
 "C09": [
  "Engine `evalActionInContext`, `fire*`",
  "equality of the recorded firings with an independent list specification (`LinksFired`)"
 ],
 "C10": [
  "Engine `evalLoop`",
  "stack discipline of the work list"
 ],
 "C11": [
  "Engine `runDue`, `objTick`",
  "partition of the queue by `since`/`pending`; counter-example"
 ],
 "C12": [
  "Engine `Context::beforeTransition`",
  "queue equality; counter-example"
 ],
 "C13": [
  "Engine `Switch`",
  "list induction against a first-applicable specification; counter-example"
 ],
 "C14": [
  "Engine predicate evaluation",
  "structural induction against a denotational semantics; abort for negation"
 ],
 "C15": [
  "Engine `getData`/references",
  "string lemmas, alias lookup"
 ],
 "C16": [
  "Engine attribution",
  "frame lemmas; counter-example"
 ],
 "C17": [
  "Engine `sendKey`",
  "delivery relation `KeyDelivered`"
 ],
 "C18": [
  "Engine settings tick",
  "case analysis; counter-example"
 ],
 "C19": [
  "Formatter",
  "two-run argument; counter-example"
 ],
 "C20": [
  "Engine `Media::beforeTransition`",
  "queue equality with a specification of the schedule"
 ],
 "C21": [
  "Engine, recursion bound",
  "divergence: invariant of the infinite execution; termination: `Proofs/Halts`"
 ],
 "C22": [
  "Engine",
  "no `ub` over all histories from the invariants; counter-examples"
 ],
 "C23": [
  "Registry",
  "invariant over histories of operations"
 ],
 "C24": [
  "Registry",
  "invariant over histories"
 ],
 "C25": [
  "Registry names",
  "string lemmas; counter-examples"
 ],
 "C26": [
  "Options: redraw list",
  "sortedness and permutation of insertion sort"
 ],
 "C27": [
  "Options",
  "case analysis over the option table, histories"
 ],
 "C28": [
  "Options: user data",
  "refinement to a map and a ledger of clean-ups"
 ],
 "C29": [
  "Text",
  "list induction"
 ],
 "C30": [
  "Text",
  "list induction"
 ],
 "C31": [
  "Text",
  "list induction, print/parse"
 ],
 "C32": [
  "Text, `FP`",
  "number grammar, rounding bounds for every `FP`"
 ],
 "C33": [
  "Text, `FP`",
  "inequalities; IEEE counter-example computed with `Proofs/IEEE`"
 ],
 "C34": [
  "Text",
  "arithmetic"
 ],
 "C35": [
  "Player",
  "table facts, case analysis on codes, independence of the recursion bound"
 ],
 "C36": [
  "Player kinds",
  "case analysis"
 ],
 "C37": [
  "Player geometry",
  "case analysis; counter-examples"
 ],
 "C38": [
  "Animator, `FP`, `FPE`",
  "inequalities, induction over frames"
 ],
 "C39": [
  "Animator",
  "case analysis"
 ],
 "C40": [
  "Engine",
  "relabelling of addresses, counter-example"
 ],
 "C41": [
  "Parser regions",
  "notes in document order with `Laid`, induction over nesting"
 ],
 "C42": [
  "Parser imports",
  "invariant of the alias stack; content of the cache after parsing"
 ],
 "C43": [
  "Parser link parameters",
  "list lemmas; counter-example"
 ],
 "C44": [
  "Parser rules and statements",
  "content invariant of the predicates built (`Proofs/Preds`), induction on the rule"
 ],
 "C45": [
  "Parser syntax check",
  "soundness and completeness of the table-driven check"
 ],
 "C46": [
  "Parser links",
  "list lemmas on role binding, frame lemmas"
 ],
 "C47": [
  "Parser properties",
  "state-level invariant of the last phase"
 ],
 "C48": [
  "Web",
  "case analysis of the dispatcher on top of the engine"
 ],
 "C49": [
  "Registry names",
  "case folding lemma, tables"
 ],
 "C50": [
  "Registry",
  "invariant over histories"
 ],
 "C51": [
  "Parser objects",
  "ghost notes with a map from elements to objects (`Proofs/Tree`, `Nest`)"
 ],
 "C52": [
  "Parser to engine (`Model/Load`)",
  "invariant of the object heap (`Proofs/World`) transferred to `DocWF`"
 ],
 "C53": [
  "Parser: connectors, links, binds, ports, end of the document",
  "numbering of all elements of the document (`Laid`), invariants of the element table, of the predicates and of the object tree carried through every push and pop (`Extra`), then specification of `resolveIface`, `resolveRole`, `popLinkElt` against an independent description of the links on the XML tree (`LinkOf`, `EventOf`); frame relation `LStep` to carry each link to the final state"
 ],
 "C54": [
  "Ltab loader (`Model/Ltab`)",
  "forest invariant (`Proofs/LtabTree`): a map from paths in the tables to objects, extended child by child, induction on the nesting (`Proofs/LtabNode`)"
 ],
 "C55": [
  "Ltab loader",
  "loops over properties and areas with an invariant on the events and values of the object (`Proofs/LtabMedia`)"
 ],
 "C56": [
  "Ltab loader",
  "specification of every reader by what it returns (`Proofs/LtabRead`, `LtabLink`); events given by text (`EventText`)"
 ],
 "C57": [
  "Ltab loader",
  "induction on predicate tables against the relation `Truth`"
 ],
 "C58": [
  "Ltab loader",
  "total correctness of every reader on well-formed tables (`Proofs/LtabOk*`): ids of the tables still to come stay unused (invariant over the forest of objects built so far); counterexamples evaluated by the kernel"
 ],
 "C59": [
  "Parser (NCL)",
  "invariant of the whole parse (`Proofs/EventK`): the events of every object are those of a new object followed by those of the elements laid so far that stand for it; the last phase (`popNcl`) adds no presentation event and no property event to contexts; elements are matched with the XML tree by `Laid`"
 ],
 "C60": [
  "Parser (NCL)",
  "each function of the parser that takes the bound is shown to settle (`Proofs/Settles`, `CloneEnds`, `PopEnds`, `ParseEnds`): structural recursion on elements, the number of files not being read for imports, and invariants of the whole parse for references (`ReferM`), interfaces and heap predicates (acyclic); negation for infinitely many spellings of one file by induction on the bound"
 ],
 "C61": [
  "Parser (NCL)",
  "the last phase followed per property (`Proofs/Desc`: `Gets`, first value wins; which object an identifier finds, from the name invariant), per descriptor (`Proofs/DescAttr`: parameters from the children, region, transitions), joined with the property, event and sharing invariants of C47 and C59; regions by the layout of C41"
 ],
 "C62": [
  "Parser (NCL)",
  "induction on the order in which the arguments are evaluated: right if the given attributes agree; negation for every order with two different values, for documents in both usual orders, and undefined behaviour for long values"
 ],
 "C63": [
  "Shell",
  "induction on the list of callbacks: the key calls made are the typed keys with the direction swapped; negation: every press is told as a release, and a key value without name is undefined behaviour"
 ],
 "C64": [
  "Shell",
  "induction on the list of files over the reachability of the formatter (C07, C08); negation: after a document has ended by itself no later document gets any tick"
 ],
 "C65": [
  "Shell",
  "induction on the callbacks with the exact list of ticks; negation for a first frame whose counter is not 0 and for the second document"
 ],
 "C66": [
  "Shell",
  "computation of strtoll over any digits; counting of the failed files; negation for negative sizes, trailing text and 256 failures"
 ],
 "C67": [
  "Animator",
  "a bar wipe and a fade are one animation of C38 (the double update in a frame is idempotent), followed through every history; negation: invariant of diagonal wipes (never complete, undefined behaviour), properties named like a wipe, a media that moves"
 ],
 "C68": [
  "Players",
  "the loop over the properties in order: a value is decided by the last property that stands for it, all others miss it; the rectangle by the nine properties that the loop restricted to them applies one after the other; negation: left and right, bounds and left, texts that mean nothing"
 ],
 "C69": [
  "Draw",
  "drawing commands per player, interpreted over an arbitrary drawing library with a few laws; a command that does not touch a pixel leaves it, the painting order is sorted (C26), so what is drawn after the uppermost object leaves the pixel; negation: opacity of the background, width of the border, wipes"
 ],
 "C70": [
  "Show, Draw",
  "the cached surface is either marked for reloading or is what the present properties render to: an invariant of every operation; negation: a changed URI of an image is not shown, an animated size of a text is not laid out again, a missing file ends the process"
 ],
 "C71": [
  "Show",
  "loop over the properties at the start, one step at a time afterwards; negation: background colour of the text read from uninitialised memory, variant not used, a value with no meaning ends the process"
 ],
 "C72": [
  "Parser",
  "invariant of the parser saying what each port found when its element was closed, kept by every later step because events and objects are never removed; induction over the nesting for ports of inner contexts"
 ],
 "C73": [
  "Parser, Load, Engine, Formatter",
  "the parser's theorems (C44, C47, C51, C53, C59, C72) carried through the hand-over of the document to the formatter, composed with the start of the body (C12) and its first tick (C11)"
 ],
 "C74": [
  "Video",
  "induction over the history, with a frame for each operation: what it asks of the pipeline and what it leaves alone; GStreamer's answers, messages and pictures are inputs"
 ],
 "C75": [
  "Lua, Engine",
  "induction over histories of a family of scripts that share one working directory; what is posted is composed with the tick of the engine (C11)"
 ],
 "C76": [
  "SigGen, Players",
  "induction over histories with the invariant that the source has what the properties say while the object is awake; induction over the loop of the start for the document"
 ],
 "C77": [
  "RemotePlayer, Players",
  "induction over histories, with the stored address as invariant; a small reader of JSON is the specification of what a message says"
 ],
 "C78": [
  "Parser",
  "each resolution at the end of the document is followed back, by the invariant that every name the parser can find comes from an identifier of the document, to the element with that identifier"
 ],
 "C79": [
  "Parser",
  "what each push and pop function requires of an element is kept as an invariant of the elements processed so far, in imported documents too, and compared with literal tables of the NCL roles"
 ]
}