
## Defects of the code established by proved counter-examples

C04 content of a switch survives STOP of the context; C05 a switch forgets its alternative on PAUSE; C06 START on a paused
child counts twice; C11 due actions are lost after one that pauses the object; C12 a context started through a child
never queues its ports again; C13 a second interface of a presented switch kills the process; C14 negated statements kill the process;
C16 attribution to a sleeping object never ends; C18/C19 focus requests lost, focus inherited from an earlier presentation; C20 finished anchors
restarted; C21 a pause/resume link cycle never returns; C22 three one-link documents that kill the process; C25 colliding full ids;
C28 erasing an absent key; C31 tables; C32–C34 number conversions; C36 SVG player unreachable; C37 `bottom` in percent, resize; C38 animation of
transparency and background; C39 animation of compound properties; C40 dependence on addresses; C41 regions outside the screen; C42 descriptor
parameter named `id`; C43 unknown parameters erased; C45 generated ids not protected; C48 requests that kill the process; C50 direct
`addObject`; C52, C56, C58, C60 see the notes in MANIFEST.json; C61 descriptor of a reference named `__settings__`; C62 the texts of transitions with several
attributes (and undefined behaviour for long values; buffer capacities as in libstdc++, order of evaluation arbitrary).
C63 keys pressed are told as released and conversely; C64 a second document never advances after the first has ended by itself; C65 clock of the second
document; C66 sizes that are not positive, 256 failures; C67 diagonal wipes, animated properties named like a wipe, a media that moves while it is uncovered;
C68 `right` overrides `left`, `bounds` overrides `left`, an empty `right`; C36 the type of a media sticks after its first start; C22 a resize to an empty window;
C69 opacity of the background colour and width of the border ignored, a wipe erases what is below the media;
C70 a changed URI of an image is not shown, a text is not laid out again for an animated size, a missing file or an empty rectangle ends the process;
C71 background colour of a text uninitialised, `fontVariant` ignored, bad values end the process;
C74 the end of a stream is not noticed, the sound cannot be changed, a position given too early (by the document or by an anchor) is lost, `-T` and `speed` undefined, errors end the process;
C75 pausing an NCLua object ends the process, so does a script that posts an unknown name; a frame of a script undoes a change of the working directory.
C76 a signal generator whose pipeline could not be started is not distinguished from one that sounds; an error of the pipeline ends the process.
C77 a remote player that registers late is not told of objects already presented; a quote in a property makes the message unreadable; failed requests are never noticed (`!status == OK`).
C78 a component may be outside the composition that names it, if a media element refers to another one (the map of references is global); the names `__root__` and `__settings__` are accepted although nothing in the document has them.
