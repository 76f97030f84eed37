# Formal model of TeleMidia/ginga in Lean 4 — design

## Trusted base

* Lean 4.33.0's kernel. Every theorem depends on at most `propext`, `Classical.choice`, `Quot.sound`
  (Lean's standard axioms). No axiom is added; no compiled evaluation is used. Concrete counter-examples
  are evaluated by the kernel (`decide +kernel` / `rfl` on closed terms).
* The reading of the C++ source: every definition of the model cites the file and lines it models and the
  simplifications made there.
* The statements: `Verif/Spec.lean` and the definitions at the head of each `Verif/Props/Cnn.lean` are the
  specifications; they do not use the helper functions of the model beyond its state and its API.

### What is modelled (Verif/Model)

| module | C++ | contents |
|--------|-----|----------|
| `Basic`, `Types` | `aux-ginga.h`, `Event.h`, `Object.h`, `Context.h`, `Switch.h`, `Media.h`, `Predicate.*` | time arithmetic, result type, documents and run-time state |
| `Engine` | `Event.cpp`, `Object.cpp`, `Composition.cpp`, `Context.cpp`, `Switch.cpp`, `Media.cpp`, `MediaSettings.cpp`, `Document.cpp` | transitions, links, delayed actions, predicates, references, keys, ticks |
| `Formatter` | `Formatter.cpp` | start, stop, resize, sendKey, sendTick, end of stream, external actions, destruction |
| `Registry` | `Document.cpp`, `Composition.cpp`, `Object.cpp`, `Event.cpp` | construction of documents, ids, aliases, names |
| `Options` | `Formatter.cpp`, `aux-ginga.cpp` | option table, painting order, user data |
| `Text` | `aux-ginga.cpp` | splitting, lists, tables, times, numbers, percentages |
| `Player` | `Player.cpp`, `Media.cpp`, `PlayerRemote.cpp` | property tables, geometry, player kinds (base class) |
| `Animator` | `PlayerAnimator.cpp` | scheduling and stepping of property animations, transitions |
| `Players` | `Media.cpp`, `Player.cpp` | the start of a media object: player created, all its properties applied |
| `Draw` | `Formatter.cpp`, `Player.cpp`, `PlayerImage.cpp`, `PlayerSvg.cpp`, `PlayerText.cpp` | what a frame draws (no OpenGL, no debugging output), reloading of content |
| `Show` | `PlayerText.cpp`, `PlayerImage.cpp`, `PlayerSvg.cpp`, `Player.cpp` | text properties, reading of transitions, the whole life of a player that shows something |
| `Video` | `PlayerVideo.cpp` | properties, states, messages and pictures of video and sound; GStreamer's answers are inputs |
| `SigGen` | `PlayerSigGen.cpp` | the signal generator: what its source of sound and its pipeline are told; GStreamer is outside |
| `RemotePlayer` | `PlayerRemote.cpp`, `PlayerRemote.h` | what a remote player is sent (address and text); libsoup and the network are outside |
| `Lua` | `PlayerLua.cpp` | NCLua players sharing a working directory, what scripts are told and post; the interpreter is outside |
| `Syntax`, `Parser` | `Parser.cpp` | syntax table, attribute checks, all push/pop functions, imports, `popNcl` |
| `Ltab` | `ParserLua.cpp` | loading of NCL-ltab tables |
| `Shell` | `src/ginga.cpp` | keyboard, frame and geometry callbacks, loop over the files, `--size`, exit status |
| `Load` | `Formatter.cpp` (start) | the engine document read off the parser's heap |
| `Web` | `WebServices.cpp`, `Document.cpp`, `PlayerRemote.cpp` | request dispatcher, remote player registration |

### What is not modelled

* The libraries behind the players (GStreamer, cairo, Lua, CEF): for the engine a player is its life cycle and property store;
  end of stream is an arbitrary external input, creation may fail (`Env.createPlayer`), a property value may be fatal
  (`Env.badProp`). What cairo, Pango, GdkPixbuf and librsvg draw is a parameter (`Cairo`, `DEnv`). What GStreamer answers is an input (`GAns`).
* libxml2 (a document is an element tree), URI and path manipulation, fontconfig, `printf("%g")`: universally quantified
  parameters (`PRead`).
* libsoup and json-glib (a request is a path and a JSON value), sockets, threads, timers.
* Floating point: a `double` is a rational; each operation is followed by `rnd`, about which only `FP`
  (monotone, exact on integers of 53 bits) or `FPE` (plus a relative error) is assumed. `ieee`/`ieeeE` show that
  round-to-nearest-even satisfies them. Infinities, NaN and hexadecimal notation are left out.
* Memory exhaustion, destructors outside `Formatter::stop`, logging and traces, the `ncl-ltab` program, GTK+ and the other options, drawing and signals of the `ginga` program, the Lua interpreter (a document is a heap of Lua tables).

## Modelling conventions

* `Res α = ok a | abort | ub | fuel`. `abort` is a failed `g_assert`/`g_error` or an uncaught exception (the process
  dies), `ub` is undefined behaviour (null or past-the-end access, signed overflow), `fuel` means that the recursion
  bound given to the interpreter was not enough. More fuel never changes a result other than `fuel` (`Proofs/Fuel`).
* `set<T*>` is ordered by address in the code. The model uses a list in an arbitrary
  order, and theorems quantify over all orders; in `Registry`/`Parser` addresses are arguments.
* Time is a 64-bit unsigned nanosecond count; `GINGA_TIME_NONE = 2^64-1`; addition wraps.
* A static document (`Doc`) is separated from the mutable presentation state (`St`).
* The engine is an executable interpreter with open recursion (`Rec`, `run d n`); everything users observe (event
  states, properties, clocks, queues, players, return values, the order of transitions) is in `St`.
* `DocWF` lists what the engine assumes of documents (tree, lambda events, ...); C52 proves it of every accepted source without
  switch ports, and of the others whose rules choose components of their own switch.
* The parser is a state monad over `PS` with three outcomes: document, reported error, process end.

## Method

* Invariants for the engine are proved per elementary step (`Proofs/Steps`) and lifted by a weakest-precondition
  calculus (`Proofs/Wp`, `Trans*`) through the mutual recursion, then through the API (`Tick`, `Invariants`, `Api`).
* For the parser, a relational frame calculus (`PM`, `PFrame`) and a ghost list of notes, one per element met in
  document order (`Content`, `Notes`, `Preds`, `Laid`, `Root`), connect the tables built to the source tree.
* Where the code does not have the property, the strongest true part is proved (suffix `_partial` or an
  explicit hypothesis) and a concrete counter-example is proved (`Cnn_fails_*`): a reachable state of a well-formed
  document, or a source text, checked by the kernel.
* Next to each theorem an `example` shows that its hypotheses are met by a non-trivial case.
* `seeded/LOG.jsonl` records the model mutations tried and the theorems that failed.

## Properties

