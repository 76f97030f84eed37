# Formal model of TeleMidia/ginga in Lean 4 — design

## Trusted base

* Lean 4.33.0's kernel. Every theorem depends on at most `propext`, `Classical.choice`, `Quot.sound`
  (Lean's standard axioms). No axiom is added; no compiled evaluation is used. Concrete counter-examples
  are evaluated by the kernel (`decide +kernel` / `rfl` on closed terms).
* The reading of the C++ source: every definition of the model cites the file and lines it models and the
  simplifications made there.
* The statements: `Verif/Spec.lean` and the definitions at the head of each `Verif/Props/Cnn.lean` are the
  specifications; they do not use the helper functions of the model beyond its state and its API.

### What is modelled (Verif/Model)

| module | C++ | contents |
|--------|-----|----------|
| `Basic`, `Types` | `aux-ginga.h`, `Event.h`, `Object.h`, `Context.h`, `Switch.h`, `Media.h`, `Predicate.*` | time arithmetic, result type, documents and run-time state |
| `Engine` | `Event.cpp`, `Object.cpp`, `Composition.cpp`, `Context.cpp`, `Switch.cpp`, `Media.cpp`, `MediaSettings.cpp`, `Document.cpp` | transitions, links, delayed actions, predicates, references, keys, ticks |
| `Formatter` | `Formatter.cpp` | start, stop, resize, sendKey, sendTick, end of stream, external actions, destruction |
| `Registry` | `Document.cpp`, `Composition.cpp`, `Object.cpp`, `Event.cpp` | construction of documents, ids, aliases, names |
| `Options` | `Formatter.cpp`, `aux-ginga.cpp` | option table, painting order, user data |
| `Text` | `aux-ginga.cpp` | splitting, lists, tables, times, numbers, percentages |
| `Player` | `Player.cpp`, `Media.cpp`, `PlayerRemote.cpp` | property tables, geometry, player kinds (base class) |
| `Animator` | `PlayerAnimator.cpp` | scheduling and stepping of property animations, transitions |
| `Players` | `Media.cpp`, `Player.cpp` | the start of a media object: player created, all its properties applied |
| `Draw` | `Formatter.cpp`, `Player.cpp`, `PlayerImage.cpp`, `PlayerSvg.cpp`, `PlayerText.cpp` | what a frame draws (no OpenGL, no debugging output), reloading of content |
| `Show` | `PlayerText.cpp`, `PlayerImage.cpp`, `PlayerSvg.cpp`, `Player.cpp` | text properties, reading of transitions, the whole life of a player that shows something |
| `Video` | `PlayerVideo.cpp` | properties, states, messages and pictures of video and sound; GStreamer's answers are inputs |
| `SigGen` | `PlayerSigGen.cpp` | the signal generator: what its source of sound and its pipeline are told; GStreamer is outside |
| `RemotePlayer` | `PlayerRemote.cpp`, `PlayerRemote.h` | what a remote player is sent (address and text); libsoup and the network are outside |
| `Lua` | `PlayerLua.cpp` | NCLua players sharing a working directory, what scripts are told and post; the interpreter is outside |
| `Syntax`, `Parser` | `Parser.cpp` | syntax table, attribute checks, all push/pop functions, imports, `popNcl` |
| `Ltab` | `ParserLua.cpp` | loading of NCL-ltab tables |
| `Shell` | `src/ginga.cpp` | keyboard, frame and geometry callbacks, loop over the files, `--size`, exit status |
| `Load` | `Formatter.cpp` (start) | the engine document read off the parser's heap |
| `Web` | `WebServices.cpp`, `Document.cpp`, `PlayerRemote.cpp` | request dispatcher, remote player registration |

### What is not modelled

* The libraries behind the players (GStreamer, cairo, Lua, CEF): for the engine a player is its life cycle and property store;
  end of stream is an arbitrary external input, creation may fail (`Env.createPlayer`), a property value may be fatal
  (`Env.badProp`). What cairo, Pango, GdkPixbuf and librsvg draw is a parameter (`Cairo`, `DEnv`). What GStreamer answers is an input (`GAns`).
* libxml2 (a document is an element tree), URI and path manipulation, fontconfig, `printf("%g")`: universally quantified
  parameters (`PRead`).
* libsoup and json-glib (a request is a path and a JSON value), sockets, threads, timers.
* Floating point: a `double` is a rational; each operation is followed by `rnd`, about which only `FP`
  (monotone, exact on integers of 53 bits) or `FPE` (plus a relative error) is assumed. `ieee`/`ieeeE` show that
  round-to-nearest-even satisfies them. Infinities, NaN and hexadecimal notation are left out.
* Memory exhaustion, destructors outside `Formatter::stop`, logging and traces, the `ncl-ltab` program, GTK+ and the other options, drawing and signals of the `ginga` program, the Lua interpreter (a document is a heap of Lua tables).

## Modelling conventions

* `Res α = ok a | abort | ub | fuel`. `abort` is a failed `g_assert`/`g_error` or an uncaught exception (the process
  dies), `ub` is undefined behaviour (null or past-the-end access, signed overflow), `fuel` means that the recursion
  bound given to the interpreter was not enough. More fuel never changes a result other than `fuel` (`Proofs/Fuel`).
* `set<T*>` is ordered by address in the code. The model uses a list in an arbitrary
  order, and theorems quantify over all orders; in `Registry`/`Parser` addresses are arguments.
* Time is a 64-bit unsigned nanosecond count; `GINGA_TIME_NONE = 2^64-1`; addition wraps.
* A static document (`Doc`) is separated from the mutable presentation state (`St`).
* The engine is an executable interpreter with open recursion (`Rec`, `run d n`); everything users observe (event
  states, properties, clocks, queues, players, return values, the order of transitions) is in `St`.
* `DocWF` lists what the engine assumes of documents (tree, lambda events, ...); C52 proves it of every accepted source without
  switch ports, and of the others whose rules choose components of their own switch.
* The parser is a state monad over `PS` with three outcomes: document, reported error, process end.

## Method

* Invariants for the engine are proved per elementary step (`Proofs/Steps`) and lifted by a weakest-precondition
  calculus (`Proofs/Wp`, `Trans*`) through the mutual recursion, then through the API (`Tick`, `Invariants`, `Api`).
* For the parser, a relational frame calculus (`PM`, `PFrame`) and a ghost list of notes, one per element met in
  document order (`Content`, `Notes`, `Preds`, `Laid`, `Root`), connect the tables built to the source tree.
* Where the code does not have the property, the strongest true part is proved (suffix `_partial` or an
  explicit hypothesis) and a concrete counter-example is proved (`Cnn_fails_*`): a reachable state of a well-formed
  document, or a source text, checked by the kernel.
* Next to each theorem an `example` shows that its hypotheses are met by a non-trivial case.
* `seeded/LOG.jsonl` records the model mutations tried and the theorems that failed.

## Properties

| id | property | model | proof | status |
|----|----|----|----|----|
| C01 | Event life cycle is a legal state machine | Engine `transition`, whole API | case analysis on the object kind, induction on the recursion bound; history log invariant over all API histories | proved |
| C02 | A media has a running player exactly while it is presented | Engine, Formatter | invariant `Good` kept by every elementary step (`Proofs/Steps`), weakest-precondition calculus (`Proofs/Wp`) through the open recursion, lifted to API histories (`Proofs/Tick`) | proved |
| C03 | Anchors live inside their media | Engine | same invariant | proved |
| C04 | Stopping a context stops everything inside it | Engine | tree invariant `CtxInv` + induction on `Below`; counter-example document for switches | partial |
| C05 | Pausing and resuming a composition reaches the running content | Engine | relation `Turned` between the states before and after PAUSE/RESUME, induction on the recursion bound (`Proofs/Pause`); counter-examples | partial |
| C06 | A context counts exactly its awake children | Engine | ghost balance in the history log, induction; counter-examples | partial |
| C07 | End of document | Formatter | case analysis on the calls, histories | proved |
| C08 | Formatter state machine | Formatter | invariant over histories | proved |
| C09 | Links fire exactly the matching actions | Engine `evalActionInContext`, `fire*` | equality of the recorded firings with an independent list specification (`LinksFired`) | proved |
| C10 | Actions of one link run in document order | Engine `evalLoop` | stack discipline of the work list | proved |
| C11 | Delayed actions are never early, never repeated and never lost | Engine `runDue`, `objTick` | partition of the queue by `since`/`pending`; counter-example | partial |
| C12 | Starting a context starts its ports | Engine `Context::beforeTransition` | queue equality; counter-example | partial |
| C13 | A switch presents its first applicable alternative | Engine `Switch` | list induction against a first-applicable specification; counter-example | partial |
| C14 | Predicates have their boolean meaning | Engine predicate evaluation | structural induction against a denotational semantics; abort for negation | partial |
| C15 | Property references resolve to the current value | Engine `getData`/references | string lemmas, alias lookup | proved |
| C16 | Attribution sets the property | Engine attribution | frame lemmas; counter-example | partial |
| C17 | Keys reach exactly the interested objects | Engine `sendKey` | delivery relation `KeyDelivered` | proved |
| C18 | Focus follows the settings | Engine settings tick | case analysis; counter-example | partial |
| C19 | A new presentation starts without inherited focus | Formatter | two-run argument; counter-example | partial |
| C20 | Media anchors are scheduled at their begin and end | Engine `Media::beforeTransition` | queue equality with a specification of the schedule | proved |
| C21 | Every action terminates | Engine, recursion bound | divergence: invariant of the infinite execution; termination: `Proofs/Halts` | partial |
| C22 | Documents accepted by the parser do not crash the formatter | Engine | no `ub` over all histories from the invariants; counter-examples | partial |
| C23 | Object identifiers are unique in a document | Registry | invariant over histories of operations | proved |
| C24 | Events of an object are unique per type and id | Registry | invariant over histories | proved |
| C25 | The full id of an event identifies it | Registry names | string lemmas; counter-examples | partial |
| C26 | Redraw paints in z order | Options: redraw list | sortedness and permutation of insertion sort | proved |
| C27 | Options read back what was set | Options | case analysis over the option table, histories | proved |
| C28 | User data behaves as a map and frees each value once | Options: user data | refinement to a map and a ledger of clean-ups | partial |
| C29 | Splitting is the inverse of joining | Text | list induction | proved |
| C30 | List parsing respects its bounds | Text | list induction | proved |
| C31 | Table parsing inverts table printing | Text | list induction, print/parse | partial |
| C32 | Time strings denote the time they show | Text, `FP` | number grammar, rounding bounds for every `FP` | proved |
| C33 | Numeric and percent values are clamped | Text, `FP` | inequalities; IEEE counter-example computed with `Proofs/IEEE` | partial |
| C34 | Integer conversions saturate | Text | arithmetic | partial |
| C35 | Player properties: aliases, defaults and read back | Player | table facts, case analysis on codes, independence of the recursion bound | proved |
| C36 | The player kind is determined by the mime type | Player kinds | case analysis | partial |
| C37 | Compound geometry properties equal their components | Player geometry | case analysis; counter-examples | partial |
| C38 | Animations are monotone and reach their target | Animator, `FP`, `FPE` | inequalities, induction over frames | partial |
| C39 | Animating a compound property animates its components | Animator | case analysis | partial |
| C40 | The presentation does not depend on memory layout | Engine | relabelling of addresses, counter-example | partial |
| C41 | Regions are laid out relative to their parents | Parser regions | notes in document order with `Laid`, induction over nesting | partial |
| C42 | Imported bases cannot loop | Parser imports | invariant of the alias stack; content of the cache after parsing | partial |
| C43 | Link parameters override by proximity | Parser link parameters | list lemmas; counter-example | partial |
| C44 | Rules compile to equivalent predicates | Parser rules and statements | content invariant of the predicates built (`Proofs/Preds`), induction on the rule | partial |
| C45 | Identifiers in a source document are unique and well formed | Parser syntax check | soundness and completeness of the table-driven check | proved |
| C46 | Links bind every role | Parser links | list lemmas on role binding, frame lemmas | proved |
| C47 | A media's own properties override its descriptor's | Parser properties | state-level invariant of the last phase | proved |
| C48 | Remote control requests never crash the player | Web | case analysis of the dispatcher on top of the engine | partial |
| C49 | Names of event types, states and transitions round-trip | Registry names | case folding lemma, tables | proved |
| C50 | Children and parents agree | Registry | invariant over histories | proved |
| C51 | The tree of objects is the tree of elements | Parser objects | ghost notes with a map from elements to objects (`Proofs/Tree`, `Nest`) | proved |
| C52 | What the parser accepts, the formatter can run | Parser to engine (`Model/Load`) | invariant of the object heap (`Proofs/World`) transferred to `DocWF` | partial |
| C53 | The links of a context are those of the document | Parser: connectors, links, binds, ports, end of the document | numbering of all elements of the document (`Laid`), invariants of the element table, of the predicates and of the object tree carried through every push and pop (`Extra`), then specification of `resolveIface`, `resolveRole`, `popLinkElt` against an independent description of the links on the XML tree (`LinkOf`, `EventOf`); frame relation `LStep` to carry each link to the final state | proved |
| C54 | An NCL-ltab document becomes one object per table | Ltab loader (`Model/Ltab`) | forest invariant (`Proofs/LtabTree`): a map from paths in the tables to objects, extended child by child, induction on the nesting (`Proofs/LtabNode`) | proved |
| C55 | A media of an NCL-ltab document has the events and properties of its table | Ltab loader | loops over properties and areas with an invariant on the events and values of the object (`Proofs/LtabMedia`) | proved |
| C56 | A context of an NCL-ltab document has the ports and links of its table | Ltab loader | specification of every reader by what it returns (`Proofs/LtabRead`, `LtabLink`); events given by text (`EventText`) | partial |
| C57 | A switch of an NCL-ltab document has the rules of its table | Ltab loader | induction on predicate tables against the relation `Truth` | proved |
| C58 | Loading an NCL-ltab document never ends the process | Ltab loader | total correctness of every reader on well-formed tables (`Proofs/LtabOk*`): ids of the tables still to come stay unused (invariant over the forest of objects built so far); counterexamples evaluated by the kernel | partial |
| C59 | Objects have the anchors and properties that the document gives them | Parser (NCL) | invariant of the whole parse (`Proofs/EventK`): the events of every object are those of a new object followed by those of the elements laid so far that stand for it; the last phase (`popNcl`) adds no presentation event and no property event to contexts; elements are matched with the XML tree by `Laid` | proved |
| C60 | Opening a document ends | Parser (NCL) | each function of the parser that takes the bound is shown to settle (`Proofs/Settles`, `CloneEnds`, `PopEnds`, `ParseEnds`): structural recursion on elements, the number of files not being read for imports, and invariants of the whole parse for references (`ReferM`), interfaces and heap predicates (acyclic); negation for infinitely many spellings of one file by induction on the bound | proved |
| C61 | A media has the values of its descriptor and region | Parser (NCL) | the last phase followed per property (`Proofs/Desc`: `Gets`, first value wins; which object an identifier finds, from the name invariant), per descriptor (`Proofs/DescAttr`: parameters from the children, region, transitions), joined with the property, event and sharing invariants of C47 and C59; regions by the layout of C41 | proved |
| C62 | A transition shows its attributes | Parser (NCL) | induction on the order in which the arguments are evaluated: right if the given attributes agree; negation for every order with two different values, for documents in both usual orders, and undefined behaviour for long values | partial |
| C63 | Keys of the keyboard reach the document | Shell | induction on the list of callbacks: the key calls made are the typed keys with the direction swapped; negation: every press is told as a release, and a key value without name is undefined behaviour | partial |
| C64 | The files of the command line are played one after the other | Shell | induction on the list of files over the reachability of the formatter (C07, C08); negation: after a document has ended by itself no later document gets any tick | partial |
| C65 | The document is told the time that passes | Shell | induction on the callbacks with the exact list of ticks; negation for a first frame whose counter is not 0 and for the second document | partial |
| C66 | Size option and exit status of the command | Shell | computation of strtoll over any digits; counting of the failed files; negation for negative sizes, trailing text and 256 failures | partial |
| C67 | A transition uncovers the media | Animator | a bar wipe and a fade are one animation of C38 (the double update in a frame is idempotent), followed through every history; negation: invariant of diagonal wipes (never complete, undefined behaviour), properties named like a wipe, a media that moves | partial |
| C68 | A media object that starts is shown as its document says | Players | the loop over the properties in order: a value is decided by the last property that stands for it, all others miss it; the rectangle by the nine properties that the loop restricted to them applies one after the other; negation: left and right, bounds and left, texts that mean nothing | partial |
| C69 | What is on the screen is what is uppermost | Draw | drawing commands per player, interpreted over an arbitrary drawing library with a few laws; a command that does not touch a pixel leaves it, the painting order is sorted (C26), so what is drawn after the uppermost object leaves the pixel; negation: opacity of the background, width of the border, wipes | partial |
| C70 | What is drawn of a media object is its present content | Show, Draw | the cached surface is either marked for reloading or is what the present properties render to: an invariant of every operation; negation: a changed URI of an image is not shown, an animated size of a text is not laid out again, a missing file ends the process | partial |
| C71 | A text is shown with the font properties its document gives | Show | loop over the properties at the start, one step at a time afterwards; negation: background colour of the text read from uninitialised memory, variant not used, a value with no meaning ends the process | partial |
| C72 | Ports lead where the document says | Parser | invariant of the parser saying what each port found when its element was closed, kept by every later step because events and objects are never removed; induction over the nesting for ports of inner contexts | partial |
| C73 | What is presented is the document that was written | Parser, Load, Engine, Formatter | the parser's theorems (C44, C47, C51, C53, C59, C72) carried through the hand-over of the document to the formatter, composed with the start of the body (C12) and its first tick (C11) | partial |
| C74 | Video and sound follow the presentation | Video | induction over the history, with a frame for each operation: what it asks of the pipeline and what it leaves alone; GStreamer's answers, messages and pictures are inputs | partial |
| C75 | An NCLua object and its script stay in step | Lua, Engine | induction over histories of a family of scripts that share one working directory; what is posted is composed with the tick of the engine (C11) | partial |
| C76 | A signal generator sounds as its properties say | SigGen, Players | induction over histories with the invariant that the source has what the properties say while the object is awake; induction over the loop of the start for the document | partial |
| C77 | A remote player is told what happens to its object | RemotePlayer, Players | induction over histories, with the stored address as invariant; a small reader of JSON is the specification of what a message says | partial |
| C78 | What an accepted document names exists | Parser | each resolution at the end of the document is followed back, by the invariant that every name the parser can find comes from an identifier of the document, to the element with that identifier | partial |
| C79 | Connectors and rules of an accepted document are well formed | Parser | what each push and pop function requires of an element is kept as an invariant of the elements processed so far, in imported documents too, and compared with literal tables of the NCL roles | proved |

## Defects of the code established by proved counter-examples

C04 content of a switch survives STOP of the context; C05 a switch forgets its alternative on PAUSE; C06 START on a paused
child counts twice; C11 due actions are lost after one that pauses the object; C12 a context started through a child
never queues its ports again; C13 a second interface of a presented switch kills the process; C14 negated statements kill the process;
C16 attribution to a sleeping object never ends; C18/C19 focus requests lost, focus inherited from an earlier presentation; C20 finished anchors
restarted; C21 a pause/resume link cycle never returns; C22 three one-link documents that kill the process; C25 colliding full ids;
C28 erasing an absent key; C31 tables; C32–C34 number conversions; C36 SVG player unreachable; C37 `bottom` in percent, resize; C38 animation of
transparency and background; C39 animation of compound properties; C40 dependence on addresses; C41 regions outside the screen; C42 descriptor
parameter named `id`; C43 unknown parameters erased; C45 generated ids not protected; C48 requests that kill the process; C50 direct
`addObject`; C52, C56, C58, C60 see the notes in MANIFEST.json; C61 descriptor of a reference named `__settings__`; C62 the texts of transitions with several
attributes (and undefined behaviour for long values; buffer capacities as in libstdc++, order of evaluation arbitrary).
C63 keys pressed are told as released and conversely; C64 a second document never advances after the first has ended by itself; C65 clock of the second
document; C66 sizes that are not positive, 256 failures; C67 diagonal wipes, animated properties named like a wipe, a media that moves while it is uncovered;
C68 `right` overrides `left`, `bounds` overrides `left`, an empty `right`; C36 the type of a media sticks after its first start; C22 a resize to an empty window;
C69 opacity of the background colour and width of the border ignored, a wipe erases what is below the media;
C70 a changed URI of an image is not shown, a text is not laid out again for an animated size, a missing file or an empty rectangle ends the process;
C71 background colour of a text uninitialised, `fontVariant` ignored, bad values end the process;
C74 the end of a stream is not noticed, the sound cannot be changed, a position given too early (by the document or by an anchor) is lost, `-T` and `speed` undefined, errors end the process;
C75 pausing an NCLua object ends the process, so does a script that posts an unknown name; a frame of a script undoes a change of the working directory.
C76 a signal generator whose pipeline could not be started is not distinguished from one that sounds; an error of the pipeline ends the process.
C77 a remote player that registers late is not told of objects already presented; a quote in a property makes the message unreadable; failed requests are never noticed (`!status == OK`).
C78 a component may be outside the composition that names it, if a media element refers to another one (the map of references is global); the names `__root__` and `__settings__` are accepted although nothing in the document has them.
