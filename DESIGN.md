# Formal model of oxvg in Lean 4

The code is noahbald/oxvg (Rust) as found in /repo. Nothing is generated from the code: the model is
written by hand, function by function; each definition names the file and the lines it models and
says where it simplifies.

## Trusted base

* Lean 4.33.0's kernel, and the axioms `propext`, `Classical.choice`, `Quot.sound` only. There is no
  own axiom, no `sorry`, no `native_decide`/`bv_decide`.
* The reading of the Rust source by hand (the correspondence model/code is not machine checked).
* Rust's standard library is taken to behave as documented (`Vec`, `str`, stable `sort_by`,
  `trim_start_matches`, ...). Floating point numbers are replaced as said per property.
* Calls into code that is not modelled are parameters of the model; what is assumed of them is a hypothesis
  of the theorem. What is and is not modelled is listed below per file; the axioms of each theorem are at
  the end.

## How disagreements are handled

Where the code violates the property for some inputs, the file contains a theorem whose name ends in
`_violated` (or similar) that exhibits a concrete input on which the modelled code breaks the claim, and a theorem
with suffix `_partial` that proves the claim under the exact hypothesis which excludes these inputs.

## Plan per property

| id | model | how proved |
|----|-------|------------|
| C01 | `Arena`: allocator as list of node handles plus id map; `alloc`, `get`, `reorder` | invariant by induction over operation lists |
| C02 | same, tree as rose tree over handles | structural induction, ids of preorder = range |
| C03 | `Dom`: heap of nodes with the five links; `remove`, `append`, `insert_*` written on links as in the code | refinement: links represent a list; each op maps representation to list operation |
| C04 | `retain_children` loop on the heap | witness for [a,b,c]; partial: dropped nodes form a suffix (or nothing is dropped) |
| C05 | `ChildNodes` iterator state machine over the heap | induction over remaining children, any removal set |
| C06 | queue algorithm over rose trees | fuel-free recursion; permutation with preorder, no duplicates, level order |
| C07 | association list with first-match lookup | map laws, invariant over histories |
| C08 | comparator as in code; `List.mergeSort`-like stable sort | comparator is total preorder; uniqueness of sorted permutation |
| C09 | attribute list + memo index | case analysis; laws over all memo values |
| C10 | `write_escaped` over `List Char` | decoder spec, round-trip by induction |
| C11 | `Xml`: the writer with its state machine and all options; an independent reader of XML | the writer is shown equal to a printing of the tree with its white space (`serialize_eq`); the reader gets that tree back (mutual induction); identity for settled texts, same words for all options; a witness for each loss |
| C12 | generator on digit lists | bijective base-52 value strictly increases, and values that are skipped belong to reserved ids |
| C13 | rename as sequential replacement over references | witness for conflation; partial for disjoint old/new names |
| C14 | `prefix_id`, `prefix_reference` on strings | algebraic laws; witness for collision |
| C15 | job set as finite map name → option config | algebraic laws |
| C16 | run loop | refinement to filter+fold specification |
| C17 | name conversion and list import | refinement, witness for the double-consumed entry |
| C18 | byte-level cursor over list of characters with utf-8 widths, explicit panic | invariant; witnesses for panics; partial for ASCII |
| C19 | number scanner | scanner = longest-match spec; witness for exponent |
| C20 | parse loop with explicit "no progress" outcome | witness of non-termination (state repeats); partial for inputs without close-path |
| C21 | decimal numbers with ryu's layout, writer and scanner | round trip by induction, under exclusion of exponent form |
| C22 | `next_implicit` and grouping | refinement to the expansion spec |
| C23 | `Data::take`/`Segment::take` over an ordered field | refinement to reference interpreter; witnesses |
| C24 | `to_svg` candidate generation | every candidate denotes the segment; witnesses |
| C25 | all passes but curves-to-arcs on rational points, with arcs as parameters; the options as bits, gathered from styles | per pass a bound on the distance of what is drawn before and after, with witnesses where there is none; exact for polygons on a grid; each option is on exactly if safe for all that styles can turn out to be |
| C26 | `Tree`: documents as trees with the visitor; `Removal`: nine jobs as hooks, splitting of addresses, namespaces in scope | mutual induction over trees: outline of the result = nodes whose lineage is not dropped; idempotence; witness for descriptions |
| C27 | `UnusedNs` on `Tree` | exact set of kept declarations over all names in the tree |
| C28 | `MoveAttrs` on `Tree`: both jobs, any properties and values, transforms as lists | what is seen of every element (values by inheritance, transforms from the root) is invariant; mutual induction; one witness per condition |
| C29 | encode/decode per constructor | round trip; witness for Insert |
| C30 | arena + selection list | composition with C01 |
| C31 | separators and integer scanner | round trip by induction |
| C32 | char-offset model of to_line_and_col | arithmetic over lists |
| C33 | `Names`: prefixes, namespaces, qualified names and attribute ids | case analysis over the known namespaces; equivalence laws |
| C34 | `Parse`: `expect_ident` over bytes; the tables of name characters | tables compared with the XML ranges for every code point; longest match by induction |
| C35 | `Number`: integer scanner and its conversions | value of a digit string by induction; range case split |
| C36 | `Parse`: the `expect_*` functions | exact outcome (result and position) per function |
| C37 | `PrefixIds`: prefix generators | case analysis; witness for two files below one directory |
| C38 | `Actions`: the argument list parser of `oxvg action` | grammar as inductive relation; soundness and completeness by induction |
| C39 | `Actions`: embedded state as cells with the actions of the editor | invariant over operation lists; exact condition; witnesses |
| C40 | `Actions` on top of `ClassList` | fold over selected ids; parity; witness |
| C41 | `Build`: `attach_child`, recursive descent and allocator on the heap of `Dom`/`Arena` | invariant "tree after clearing the sibling links of style sheets"; exact termination of `reorder`; witness for all documents with style |
| C42 | `Namespaces`: the two prefix maps threaded through the descent | invariant "the maps hold the declarations met"; meaning of written names by namespace lookup; six witnesses |
| C43 | `Cascade`: `ComputedStyles::with_all`, `get`; selector matching is a parameter | the code's maps hold the last candidate; agreement with the cascade under every truth of conditions is closed under fallback; induction over ancestors; seven witnesses |
| C44 | `Transform`: transform lists, decomposition, rounding and shortening over real numbers; conversion from and to CSS | both decompositions are exact (trigonometry from Mathlib); each step keeps the drawing or rounds; error bound of the rounding; five witnesses |
| C45 | `Apply`: the loop over the commands, the axes of the image of an ellipse, over real numbers; the curves of commands as SVG defines them | the axes are eigenvalues and an eigenvector of the Gram matrix; arcs have exactly one curve; image of arcs if and only if the sign rule holds; witnesses |
| C46 | `Shapes`: each shape to path data over real numbers, rounding, the choice by stylesheets, the conversion of ellipses to circles; corners, radii and percentages as SVG 2 defines them | curves of the path data compared with the outline; the angle of a point of an ellipse is unique up to full turns; witnesses |
| C47 | `Empty`: three jobs over trees with any attributes; removal after the children are visited for containers, before for texts, replacement of children for definitions | exact set of removed nodes by mutual induction on trees; hollow trees as an inductive predicate; witnesses |
| C48 | `Collapse`: the loop over the attributes of a group with its two ways to end, the four tests before it, flattening; a picture of a document as the things drawn with transforms, inherited properties and effects, given which properties are inherited and what styles declare | each attribute moved keeps the picture of group and child; induction over attributes and trees; exact result for groups around one element; witnesses |
| C49 | `Values`: kinds of values with their numbers and units, the visits of numbers and lengths with and without lists, both jobs | the two visits come to one map of the value; nearness from the rounding function; physical sizes of units from their definition in inches; witnesses |
| C50 | `MergePaths`: the loop over pairs of children with the data collected, the comparison of attributes, the tests of styles, the change of the first move | an invariant over the data collected gives the partition of the children into runs; subpaths of joined data; the picture as a congruence of painting steps; the test of the job composed of the models of C23, C63 and C62, and proved to separate all that is painted; witnesses |
| C51 | `Stroke`: `element` and `apply_stroked` over attributes, rules and ancestors; a picture of outline, stroke and references | what each edit does to each kind of attribute; similarities from the test of the matrix; strokes as functions that go with similarities, a round pen with dashes by arc length as an instance; witnesses on a line |
| C52 | `Viewport`: both hooks over attributes with units and view boxes, run over trees; a picture of frames (map of coordinates, size for percentages, viewports around) | the equivalent transform of a viewport as in SVG 2, 8.2, over rational numbers; a view box that fits is the identity; induction over trees for edits that keep frames; witnesses |
| C53 | `Unknowns`: the tables of all elements and attributes with groups, categories and defaults; the hooks over trees with rules and ancestors; a specification of content models, attributes per element and properties of SVG 2 | a relation between elements before and after with their ancestors, by induction over trees; computed values by C43; tables compared with the specification by evaluation over all keys; witnesses |
| C54 | `Retain`: the three jobs over attributes and trees, collected selectors; a specification of languages, conditions, namespaces, animations and parts of selectors | attributes filtered element by element along trees; properties by the specification of C53; what is not removed is found in a selector; witnesses |
| C55 | `Unpainted`: the job over attributes and trees with computed styles without rules; a specification of values with `inherit`, of fills, strokes and markers | computed styles shown to be the nearest declaration, which gives the value by CSS; each step keeps the values or leaves both sides undrawn; chains of ancestors by induction over trees; witnesses |
| C56 | `Hidden`: the job as two passes over a tree with marks for the collected nodes, removal of parents, collected ids, the end of the document with the order of a hash set as a parameter; a specification of what is rendered, visible, used and referred to | invariants along both passes (what is kept, what marks mean, which ids are collected) by mutual induction over trees; the order does not matter as a defs without a defs in it is empty or not whenever it is looked at; computed styles without style sheets are those of C55; witnesses evaluated by the kernel |
| C57 | `Merge`: the job over trees of style elements, whose rules are opaque except media rules and rules that count at the beginning only; a specification of the rules that count in a document | the pass shown to collect the sheets in document order; what counts of the collected rules is what counts of the sheets; mutual induction over trees; witnesses |
| C58 | `Inline`: the passes over style sheets (tokens that are protected, selectors that are taken), the groups of declarations with their stable sort, removal of attributes, classes and ids; the selector engine is a parameter; a specification of matching and of the cascade with important declarations | what is declared for an element before is a mixture of what is inlined and of what stays, in order; sorting by specificity and taking the last is the same as taking the strongest; tokens of what stays hold for the same elements; witnesses |
| C59 | `Minify`: use of names, ids and classes, the selectors that stay, style sheets and `style` attributes, with the minifier of lightningcss as a parameter; a specification of matching and of the cascade with nested rules as a parameter | a selector that goes matches nothing, so what it declared is nothing; a minifier that is right keeps what wins wherever its rules stand; witnesses |
| C60 | `SortDefs`: the comparison, insertion sort as in the standard library for up to 20 items, the promise of the standard library for more, the pass over trees; the links of siblings as in `Dom` | insertion of what is not an element passes everything; sorted and stable by induction; positions to children; uniqueness of the arrangement gives that it is a fixed point; links from the lemmas of C03 |
| C61 | `CleanAttrs`: newlines, `trim`, `split_whitespace` and `join` over code points, the pass over trees; a specification of words independent of splitting | words of a text are unique and kept by each of the three steps; what is clean is a fixed point; lifting to trees by mutual induction; witnesses |
| C62 | `Gjk`: the whole file, over any ordered field; points of arcs over ℝ; a specification of what subpaths draw by parameters | both chains of the hull by an invariant on turns; the walk around the hull is monotone up to the farthest point; every edge of the search is seen under more than a right angle and what was visited lies within, so points are new and the search ends; barycentric coordinates; Bézier points and arcs in the hull of their control points |
| C63 | `ArcTo`: arc commands to arcs with centre and angles over the reals, and back; reverse, clamp, subdivide | `Draws` states F.6.1, F.6.2 and F.6.6 of SVG 1.1 without the formulas of F.6.5 (ends, rotation, radii or their smallest multiple with an ellipse through both points, direction, size). The arc of the code draws the arguments, and any two such arcs have the same points. Written arguments draw the arc unless it is nearly half of an ellipse. There: radii within the tolerance, exact half comes back; it does not end exactly if both radii round to nothing (violation), and the middle may move by 190 times the tolerance (violation). |
| C64 | `Canvas`: the whole job on documents as trees, with `from_svg` (`Segment`), arcs (`ArcTo`) and the test for intersections (`Gjk`) | every path that goes is apart from the canvas by C62, C23 and C63; the paths that are seen inside of the canvas are the same list before and after, by induction over the tree; a path beyond a side does go (boxes) |
| C65 | `Verif/Xlink/Model.lean`: `element`, `exit_element`, `handle_show`, `handle_title`, `handle_href`, the three stacks as one, and the walk; panic is `none` | Element by element: links, places, tooltips and known attributes are kept and it is said exactly which attributes of XLink stay (`run_kept_partial`); panics exactly (`run_total_iff`); other attributes with and without the option (`foreign_kept`, `foreign_gone`); dangling prefixes exactly (`dangling_iff`). Violated: `foreign_violated`, `chance_violated`, `dangling_violated`, `legacy_violated`, `title_violated`, `panic_violated` |
| C66 | `Verif/Walk/Model.lean`: file systems as maps from paths, `output_path`, `Output::output`, `handle_path` as a relation over all schedules of threads (read and write are separate steps), the choice of standard input | An invariant over all steps of all schedules: `walk_written`, `walk_else`, `walk_same` (the schedule does not matter), `walk_fails`, `walk_nothing`, `walk_goes_on`. Violated: `inplace_violated`, `within_violated`, `several_violated`, `torn_violated`, `dot_violated`, `extension_violated` |
| C67 | `Select`: elements in a document with parents and siblings, the breadth-first iterator, all answers of `SelectElement`, the indices kept in a cache by address; selectors as trees with combinators, `:not`, `:is` and places; a specification of matching by Selectors Level 4 | every test answers what the specification says and what is known stays right, by induction over the selector with the cache as state; the queue of the iterator keeps elements in order; witnesses |
| C68 | `StyleAttr`: the declarations of a `style` attribute, those that have an attribute, the list of new attributes, the new `style` attribute; the order in which `style` attributes, style sheets and presentation attributes win | exactly which attributes and declarations result; the value that wins is the same before and after, by cases over the order; witnesses for every property of the table |
| C69 | `RemoveAttrs`: patterns as text, splitting at the separator, regular expressions with anchors and what they match, the loop over patterns, attributes and elements | exactly which attributes go and when there is an error, by induction over patterns and documents; what `^` and `$` around an expression mean, by inversion of matching; witnesses |
| C70 | `Background`: attributes and the `style` attribute of every element, the values of `enable-background`, the search for filters, the walk over the document | exactly what becomes of every attribute, as a relation that leaves no choice, by induction over attributes and documents; idempotence; the value that counts by the cascade; witnesses |
| C71 | `Colors`: the contents of attributes with their colours, style attributes, style sheets, the walk with masks | exactly which colours change, by induction over contents and documents; the colours that elements then use, from how `currentColor` and inheritance of `color` are defined; witnesses |
| C72 | `Scripts`: elements, attributes for events, links; the table of events; the walk; the search for scripts; the links of the tree when a link to a script is dissolved | absence by induction over documents, for all documents; what stays as a relation; that the list of children is as modelled is proved on the heap of `Dom`; witnesses |
| C73 | `Precheck`: the four checks of elements, the walk that ends with the first error | exactly which documents are accepted and which error comes first, by induction over documents; witnesses |
| C74 | `RootAttrs`: the lookup of names of attributes, the two jobs on the root element; the order of a set is any | what is added in closed form, by induction over the options and over documents; witnesses |
| C75 | `Gradients`: the walk, the state, the lookup of templates, the changes of paints, what is removed at the end of `svg`; the colour of a stop is a parameter; what a paint looks like is a relation that follows templates | the state after a walk by induction over documents; for documents with one `svg` element what is left in closed form; that paints look the same from it; each of the other cases is a violation |
| C76 | `Fit`: the circle through ends and middle of a cubic curve as where two bounded bisectors meet, the check of the quarters and of the sides of the controls, the angles of the ends, the choice of the shorter way around, the replacement of the curves of a path; the intersection of lines is a parameter with a contract; numbers are real | circles and chords by algebra; the points of the arc by the law of the inscribed angle; the distance of the curve from the circle as a polynomial of degree six that is known at five places (Hermite interpolation) |
| C77 | `Curves`: points of a cubic curve, its division, reversal and parts, the search of the place of a point by five times up to eight steps of the method of Newton, the distance of a control from the chord, the iterator of coordinates with its choice of a step; numbers are those of any ordered field | polynomial identities for all parameters; the search by invariants of the loop; the iterator by induction; the distance of the curve from the line through the coordinates by the error of linear interpolation |
| C78 | `Arcs`: the angle and the place of a point on an arc, parts between points, the length by the rule of the code, tangents, the conversion to a curve, the iterator of coordinates with its choice of a step; numbers are real | the argument of complex numbers for angles, rounding to the turn that is closest to the middle; weights of the rule summed by induction; derivatives; the error of chords in the unit circle |
| C79 | `Overlay`: paths made polygons with an entry per part, the search for the entry of an edge, the actions along a ring, parts of curves and arcs, panics as `none`; the operations of `i_overlay` as parameters with a contract on areas; the action on selected elements | the least distance by folds; a walk along the ring as an invariant of the actions; folds of operations on sets; witnesses: a parabola of any width from 100 on, a loop of any size from 1 on |
| C80 | `Lint`: the stack of sets of declarations, their use by names, the ids and references, the reader as far as prefixes go, inheritance of a property | an invariant of the stack over the mutual recursion of the visit: below, each set keeps what was declared, marked if a name was met; maps of the reader for documents with all declarations at the root |
| C81 | `Report`: the excerpt of the source as list of bytes or characters, the naive range, the row of marks | lengths and positions of the marks for all texts; exact conditions for the panic and for marks under the range |
| C82 | `Check`: severities, rules as a function, counts, the outcome, the command, the printed configuration, the editor as a map fed by notifications | folds over the rules; induction on the history of the editor from its end |
| C83 | `Reuse`: the document as tree and heap, the lists of equal paths, definitions, references, the visit with its exits; what is drawn as a relation with `use` followed to the first element with the id | the job as the image of the tree under added children and a changed heap; a simulation between what is drawn before and after; violations for all simple documents |
| C85 | `Jsx`: documents, the tables of attribute names, JSX trees, the tokens they are written as, and a reader of JSX (braces, tags, character data) that is independent of the writer | reading inverts writing for trees whose text is literal; the exact set of faithful documents (`toJsx_shows_iff`); table facts by kernel evaluation over the whole finite table; violations for every document that contains the offending node at any depth |
| C84 | `Jsx/Vars`, `Jsx/Scope`: the module as the names it imports, declares and uses, with the options, React Native names and the index; resolution of values and types as predicates on the module | the identifiers of the JSX are followed through every step of the configuration; exact conditions for types, distinct names and the index by cases over the options; the name of the component by induction over the name of the file |
| C86 | `Jsx/Preset`, `Jsx/Render`: the configuration applied to the JSX tree; rendering with given properties (last value wins, spreads, conditionals) | precedence of the attributes as one equation for every name; titles by a commutation of the change to JSX with rendering; replacements as one simultaneous substitution; unclosed tags by counting tokens |
| C87 | `Clock`: `ClockValue`, `Metric`, `Dur` read and written over exact decimal numbers; the grammar of clock values with its meaning in seconds as an inductive relation | every text of the grammar is followed through the reader (induction over digit runs) and the written text is shown to be a clock value of the same length; the exact condition under which it is in the strict grammar |
| C88 | `Clock/Begin`, `Clock/Kept`: `BeginEnd` read and written; begin values with what makes the animation begin and the time to wait as an inductive relation | exact characterisation (`begin_kept_iff`) by cases over the grammar; every earlier alternative of the reader is shown to fail without moving; violations for every name with a minus sign and every negative offset with a colon |
| C89 | `BySelector`: the loop of `remove_attributes_by_selector` over the lazy selection of `Select`, by places in the document | what a selector asks for is shown not to depend on the listed attributes of other elements (mutual induction over selectors, with a document cleaned of these attributes as normal form); the loop is then followed place by place; concrete documents where the selection changes while it is used |
| C90 | `Sink`: the namespace map, `find_new_xmlns`, `add_xmlns`, `append` of the xml5ever sink, element by element in document order; panics of `Vec::insert` as `none` | an exact characterisation: an invariant ties the map to the declarations on the root as long as prefixes have one meaning each; conversely declarations are never taken away, unprefixed elements of other namespaces add to the number of default declarations, and elements below the root declare no prefixes; general panic witness |
| C91 | `Keywords`: the keywords of all 69 enums made with `enum_attr!`, `Inheritable`, `paint-order`, `preserveAspectRatio`, `font-variant` as parser and printer, on the cursor of `Parse`; variants are places in the tables | for every text: what is read is what the words of the text stand for and the text written has the same words or stands for the same value; valid texts are read for enums, paint order and aspect ratio; that the tables have no repetitions and only names is a check of the finite tables; violations for `aria-relevant`, `font-variant` and white space of Unicode are general |
| C92 | `Rules`: the five lint rules on single elements (`no_deprecated`, `no_invalid_attributes`, `no_unknown_attributes`, `no_unknown_elements`, `no_xlink`) on an element as the roxmltree reader makes it, with the map of ranges; the tables of elements and attributes and the parsers of values are parameters | for every table, every element and all attributes: the reports are, in order, one for each attribute with the problem, which is put in terms of namespaces and local names only, and carry the range of that attribute; that tables are sound (`Sound`) is a hypothesis on the `xmlns` and XLink rows; violations are general but for the place of the rest of a path |
| C93 | `Boxes`: parser and printer of `viewBox`, `clip`, `enable-background` and values of one or two numbers (`radius`, `stdDeviation`, `order`, …) on the cursor of `Parse`; numbers are exact decimals | for every text: valid texts, given by a grammar with the rational values of the numbers, are read, and what is written is valid with the same values (`*_kept`); what is read as a `viewBox` or as two numbers has a grammar of its own (`viewBox_sound`, `pair_sound`), and so has what is read as `clip` or `enable-background` (`clip_sound`, `enable_sound`, in `Choice.Closed`); violations for all texts with too many commas |
| C94 | `Choice`: parser and printer of `font-size-adjust`, `repeatCount`, `rotate`, frequencies and control points on the cursor of `Parse`; numbers are exact decimals | for every text: valid values, given by a grammar with the rational values of the numbers, are read and written with the same meaning (`*_kept`); what is read is a keyword or a number and keeps its meaning (`*_sound`); exactly which numbers are counts (`count_iff`) and which units of frequencies are read (`frequency_iff`, a violation for `kHz`); `min`, `max` and `repeatDur` are a keyword or a clock value of `Clock` (`limit_kept`, `repeat_kept`, `limit_strict_iff`) |
| C95 | `Words`: parser and printer of `target`, `in`, names of colour profiles, `true`/`false`/`undefined`, boolean attributes and ids on the cursor of `Parse` | for every text: exactly when reading panics (`*_panic`), what is written for what is read (`*_written`), and that names of XML are read (`*_kept`, `in_iff`, `id_iff`); the violations are for all names that do not begin with an ASCII character, and all inputs with white space behind them |
| C96 | `Moves`: parser and printer of single transforms and of lists of them on the cursor of `Parse`, with the numbers of `Clock`; transforms in CSS are opaque | the grammar of `transform` with its meaning is stated on its own: every valid text of fewer than 2048 functions is read and written with the same meaning (`list_kept`), every longer one panics (`long_violated`), what is read is functions of SVG with the right number of numbers (`list_sound`), a transform in CSS is only read at the end (`css_last`, `css_first_violated`), and text in other scripts panics (`foreign_violated`) |
| C97 | `Shared`: `Info::new` over any selection, any tables of names, and any elements; printing a value may fail | each field has its own exact theorem over the selected elements: name (`name_iff`), values (`values_iff`), permitted elements and expected attributes (`members_iff`), when nothing (`nothing_iff`) or an error (`error_iff`) is given; the flags are shown to be always all (`flags_violated`) and the text to be that of the last element (`text_iff`, `same_text_violated`, `other_text_violated`) |
| C98 | `Points`: reading by `parse_extend` with an implicit start and what is kept at an error; writing as the sequence of pieces given to the writer that takes a leading `M` off each | every list of points of the SVG grammar is read as a move and lines with all its numbers in order (`points_read`), and a text without command letters that is read to its end is such a list up to repeated commas (`points_sound`), and otherwise the points before the error are kept (`points_prefix`, `points_accepted`); reading ends without a close-path (`points_halt`); points are written without the letter (`points_bare`) and read again with the same values (`points_written_partial`, under the conditions of C21); violated: a letter before the points is forgotten (`letter_violated`), a second move runs into the number before it (`moves_violated`) |
| C99 | `Edit`: the loops of the actions `attr` and `style` over any selection and any arena; the names an element knows and the reading of CSS are parameters | exact effect on every node, by the number of times it is selected (`attr_done`, `style_done`); nothing is changed when CSS cannot be read (`style_error`); when a declaration is important (`important_iff`); violated: a name with two colons panics (`attr_panics_violated`) |

## Results per property

* **C01** Allocation ids stay a dense, retrievable numbering: proved. For one allocator at a time. A cloned allocator breaks the numbering (clone_violated); the property speaks of one allocator.
  Theorems: `Arena.history_spec`, `Arena.alloc_spec`, `Arena.new_spec`, `Arena.clone_violated`.
* **C02** Reordering numbers the tree in document order: proved. 
  Theorems: `Arena.reorder_spec`.
* **C03** Tree edits keep the sibling and parent links consistent: partial. Proved for remove, append, insert_before/after, after, replace_with, flatten and all histories of them; for append_child, replace_children, sort_child_elements and empty the exact condition is proved; before never leaves consistent links.
  Theorems: `Dom.remove_spec`, `Dom.append_spec`, `Dom.insertBefore_spec`, `Dom.insertAfter_spec`, `Dom.after_spec`, `Dom.replaceWith_spec`, `Dom.flatten_spec`, `Dom.item_spec`, `Dom.appendChild_spec_partial`, `Dom.appendChild_iff`, `Dom.replaceChild_spec_partial`, `Dom.insert_spec_partial`, `Dom.history_spec`, `Dom.sortChildren_iff`, `Dom.replaceChildren_iff`, `Dom.empty_iff`, `Dom.before_violated`, `Dom.insertSelf_violated`, `Dom.setLocalName_violated`, `Dom.sortChildren_violated`, `Dom.empty_violated`, `Dom.setTextContent_iff`.
* **C04** Retaining children keeps exactly the selected children: partial. retain_children is right exactly when the dropped children come first (retain_iff); otherwise the links break (retain_violated).
  Theorems: `Dom.retain_iff`, `Dom.retain_spec_partial`, `Dom.retain_violated`.
* **C05** Visiting children is complete under self-removal: proved. 
  Theorems: `Dom.both_ends_spec`, `Dom.edit_loop_spec`, `Dom.remove_loop_spec`.
* **C06** Breadth-first search visits every descendant element once: proved. 
  Theorems: `Bfs.bfs_spec`, `Bfs.find_spec`.
* **C07** Attribute storage behaves as an ordered map: partial. Setting is proved outright. Reading and removing go by the id variant, so the map laws need names recognised for the same element (recognised_coherent shows that this is the normal case); get_violated is the counterexample otherwise.
  Theorems: `Attrs.set_spec`, `Attrs.set_get`, `Attrs.set_at`, `Attrs.set_others`, `Attrs.set_length`, `Attrs.remove_spec`, `Attrs.history_distinct`, `Attrs.recognised_coherent`, `Attrs.get_partial`, `Attrs.getMut_spec`, `Attrs.remove_partial`, `Attrs.get_violated`, `Attrs.getNs_spec`, `Attrs.getLocal_spec`, `Attrs.retain_spec`.
* **C08** Sorting attributes is a pure reordering with a canonical result: partial. Everything proved; independence of the initial order needs attributes whose canonical spellings differ.
  Theorems: `Attrs.cmp_eq`, `Attrs.cmp_total_preorder`, `Attrs.sort_perm`, `Attrs.nsClass_eq`, `Attrs.sort_ordered`, `Attrs.sort_idempotent`, `Attrs.sort_canonical_partial`, `Attrs.sort_canonical_violated`, `Attrs.part_eq`.
* **C09** Class list operations are set operations on tokens: proved. For elements whose class attribute was parsed; add_raw_violated shows what happens to an unparsable one.
  Theorems: `ClassList.contains_spec`, `ClassList.length_spec`, `ClassList.add_spec`, `ClassList.remove_spec`, `ClassList.toggle_spec`, `ClassList.toggle_twice`, `ClassList.replace_spec`, `ClassList.retain_spec`, `ClassList.history_spec`, `ClassList.add_raw_violated`.
* **C10** Escaping text and attribute values loses nothing: proved. 
  Theorems: `Escape.escape_round_trip`, `Escape.escape_appends`, `Escape.escape_no_markup`, `Escape.escape_no_delimiter`, `Escape.escape_ampersand`.
* **C11** Serialising and reading back a document is the identity: partial. For all documents of writable characters with one root element: exact with the original white space, exact for texts already in the form the treatment produces, and the same elements, attributes and words for all options. Each violated theorem shows a loss that keeps this from being the identity.
  Theorems: `Xml.original_partial`, `Xml.settled_partial`, `Xml.words_partial`, `Xml.adjacent_violated`, `Xml.between_violated`, `Xml.noBreak_violated`, `Xml.leak_violated`, `Xml.unleak_violated`, `Xml.pretty_violated`, `Xml.value_violated`, `Xml.carriage_violated`, `Xml.unreadable_violated`, `Xml.instruction_violated`.
* **C12** Generated ids are distinct, valid and avoid reserved ids: proved. 
  Theorems: `IdGen.ids_terminate`, `IdGen.ids_distinct`, `IdGen.ids_valid`, `IdGen.ids_avoid_reserved`, `IdGen.ids_length_monotone`, `IdGen.ids_disjoint`, `IdGen.ids_none_skipped`.
* **C13** Renaming ids keeps references intact: partial. follow_partial describes the whole result. Its conditions: minify is on, no id is the percent-encoded form of another, and an attribute with several references has none that is percent-encoded or consists of letters only. Outside of these the property is false, as the violated theorems show; numeric ids and the choice among repeated ids break it as well.
  Theorems: `CleanupIds.follow_partial`, `CleanupIds.ends`, `CleanupIds.left_alone`, `CleanupIds.names_iff`, `CleanupIds.preserved_iff`, `CleanupIds.mixed_violated`, `CleanupIds.not_minified_violated`, `CleanupIds.digits_violated`, `CleanupIds.encoded_violated`, `CleanupIds.first_violated`, `CleanupIds.raw_violated`, `CleanupIds.forced`.
* **C14** Prefixing ids keeps ids distinct and references intact: partial. Idempotence and untouched addresses hold in full. Different ids stay different except when one is the prefix followed by the other (collide_iff is exact; distinct_violated). References follow when ids are prefixed and no style element is empty; both conditions are needed (classes_only_violated, empty_style_violated).
  Theorems: `PrefixIds.follow_partial`, `PrefixIds.collide_iff`, `PrefixIds.prefixId_spec`, `PrefixIds.prefixReference_spec`, `PrefixIds.job_idempotent`, `PrefixIds.classes_follow`, `PrefixIds.remote_untouched`, `PrefixIds.off_unchanged`, `PrefixIds.distinct_violated`, `PrefixIds.classes_only_violated`, `PrefixIds.empty_style_violated`, `PrefixIds.whole_document_violated`.
* **C15** Job sets combine as documented: partial. All laws proved for Jobs and Extends; the configuration file ignores omit when extends is absent (resolve_violated).
  Theorems: `Jobs.extend_spec`, `Jobs.omit_spec`, `Jobs.omit_unknown`, `Jobs.extend_assoc`, `Jobs.extend_idem`, `Jobs.extend_none_right`, `Jobs.extend_none_left`, `Jobs.none_disables`, `Jobs.safe_eq_default_with_precheck`, `Jobs.resolve_partial`, `Jobs.resolve_violated`, `Jobs.Svgo.default_order`.
* **C16** Only enabled jobs run, once, in a fixed order, and errors stop at important ones: proved. 
  Theorems: `Jobs.run_spec`, `Jobs.run_no_root`, `Jobs.important_spec`, `Jobs.Svgo.default_order`.
* **C17** Importing an SVGO plugin list honours every entry: partial. Every entry list is imported exactly; the removeUseless parameter is consumed twice and preset-default given as an object is rejected (both shown).
  Theorems: `Jobs.Svgo.snake_svgoName`, `Jobs.Svgo.import_spec`, `Jobs.Svgo.import_unknown`, `Jobs.Svgo.import_default`, `Jobs.Svgo.path_config_partial`, `Jobs.Svgo.path_config_violated`, `Jobs.Svgo.import_preset_object_violated`, `Jobs.Svgo.import_bad_params`.
* **C18** The value parser never moves outside of its input: partial. For each operation the exact condition under which the parser stays between characters without panicking is proved (step_iff), and every program over an ASCII text that does not use skip_char or expect_str in a wrong place is safe (ascii_safe_partial). read, skip_char and expect_str break the property on some inputs.
  Theorems: `Parse.step_iff`, `Parse.tryParse_spec`, `Parse.ascii_safe_partial`, `Parse.skipChar_iff`, `Parse.read_violated`, `Parse.skipChar_violated`, `Parse.expectStr_violated`.
* **C19** Numbers are recognised as in the SVG grammar: partial. Whatever is parsed is the longest number of the grammar (f64_sound, every input). Not every number is parsed: f64_iff states exactly when, for texts that do not end with a point; f64_violated gives four numbers that are rejected.
  Theorems: `Number.f64_sound`, `Number.f64_none`, `Number.f64_iff`, `Number.f64_clash`, `Number.f64_parsed`, `Number.f64_violated`, `Number.rustFloat_iff`.
* **C20** Every path string is parsed in finitely many steps: partial. The parser does not always halt (halts_violated). halts_iff is the exact set of texts on which it runs for ever, for texts that do not end with a comma or a point; halts_no_close covers every text without a close-path letter. flag_panics shows a text on which it panics.
  Theorems: `Path.halts_iff`, `Path.halts_no_close`, `Path.parse_mono`, `Path.halts_violated`, `Path.trailing_violated`, `Path.flag_panics`.
* **C21** Formatting path data and parsing it again is the identity: partial. Proved for every path whose numbers avoid three named situations; each situation is shown to break the property. For numbers alone the condition is exact (short_value, short_value_violated). Numbers are the decimals that ryu finds; that these denote the f64 is not modelled.
  Theorems: `Path.format_partial`, `Path.short_value`, `Path.short_shape`, `Path.short_value_violated`, `Path.fraction_after_exponent_violated`, `Path.implicit_violated`, `Path.implicit_silent_violated`, `Path.implicit_close_violated`.
* **C22** Implicit commands mean what SVG says: partial. Completeness (parse_svg) for the grammar of SVG and soundness (parse_sound) for a grammar with freer separators, both for texts that do not end with a comma or a point. Differences from SVG are shown: an exponent followed by a point is refused, a trailing comma eats characters, white space after a final close-path adds a command.
  Theorems: `Path.parse_svg`, `Path.parse_sound`, `Path.table_iff`, `Path.exponent_violated`, `Path.comma_violated`, `Path.trailing_violated`.
* **C23** Converting path commands to segments preserves the drawing: partial. Over the rationals. Holds for data in which no smooth command follows a curve of the other kind, no arc is degenerate and no subpath ends within the tolerance of the next start; each exception is shown to change the drawing. Arcs are compared by their parameters; the conversion of an arc to its centre is not modelled.
  Theorems: `Segment.fromSvg_spec`, `Segment.fromSvg_partial`, `Segment.fromSvg_none_iff`, `Segment.smooth_after_quad_violated`, `Segment.smooth_after_cubic_violated`, `Segment.closed_by_next_move_violated`, `Segment.lone_close_violated`, `Segment.tiny_radius_violated`, `Segment.empty_arc_violated`.
* **C24** Converting segments back to commands preserves the drawing: partial. Proved for exact arithmetic, any estimate of lengths, and segments in which smooth and closing commands are not mistaken (FitsAll); end points are exact, control points within the tolerance that the code grants. The excluded situations are shown to change the drawing, and rounding of relative commands has no bound on its error (drift_violated).
  Theorems: `Segment.toSvg_partial`, `Segment.toSvg_letters`, `Segment.toSvg_total`, `Segment.quad_after_cubic_violated`, `Segment.cubic_after_quad_violated`, `Segment.smooth_across_move_violated`, `Segment.empty_line_violated`, `Segment.line_to_start_violated`, `Segment.drift_violated`.
* **C25** Path simplification keeps the drawn point set for safe options: partial. Over the rationals; arcs and curves-to-arcs are parameters. Bounds per pass under conditions, with witnesses that without them there is no bound; exact for polygons on a grid through all default passes; each option is on exactly if safe, but for one mistake about line caps.
  Theorems: `Simplify.closeSegments_fill`, `Simplify.removeCloseLine_fill`, `Simplify.removeCloseLine_stroke`, `Simplify.removeEmpty_spec`, `Simplify.removeNoop_partial`, `Simplify.vanish_violated`, `Simplify.joinNodes_ends`, `Simplify.joinNodes_partial`, `Simplify.joinNodes_grid`, `Simplify.corner_violated`, `Simplify.straightCurves_partial`, `Simplify.straightCurves_ends`, `Simplify.loop_violated`, `Simplify.overshoot_violated`, `Simplify.closeLine_iff`, `Simplify.join_iff`, `Simplify.empty_iff`, `Simplify.unite_iff`, `Simplify.close_iff`, `Simplify.noop_partial`, `Simplify.dynamic_cap_violated`, `Simplify.close_stroke_violated`, `Simplify.job_passes`, `Simplify.optimize_grid`.
* **C26** Node-removing jobs remove exactly what they say: partial. Removal is exact for every job and document. Only the second run of remove_desc may change something (desc_violated); desc_idem_partial says when it does not. Raster images are told by words in the address, which vector images may have too (raster_violated). What remains without the data of editors is still in the namespaces of its prefixes. There is no doctype node in the tree.
  Theorems: `Removal.comments_spec`, `Removal.comments_error_iff`, `Removal.comments_idem`, `Removal.is_iff`, `Removal.named_spec`, `Removal.metadata_spec`, `Removal.title_spec`, `Removal.styleElement_spec`, `Removal.procInst_spec`, `Removal.off_spec`, `Removal.desc_spec`, `Removal.desc_idem_partial`, `Removal.desc_violated`, `Removal.byAttr_spec`, `Removal.raster_spec`, `Removal.raster_iff`, `Removal.rasterImage_iff`, `Removal.raster_off`, `Removal.raster_violated`, `Removal.editors_spec`, `Removal.editors_sound`.
* **C27** Unused namespace removal keeps every used prefix bound: proved. Exact set of removed declarations, on top of the tree model.
  Theorems: `UnusedNs.exact_spec`, `UnusedNs.bound_spec`, `UnusedNs.off_spec`, `UnusedNs.unused_idem`.
* **C28** Moving attributes between group and children keeps inherited values: partial. Whole runs over all trees. Conditions: groups carry no competing style declarations, moved values are absolute, transforms are readable and not in style; the violated theorems show that each condition is needed. Values that are relative to another property are not modelled. That a transform is not moved to a group with a filter, clip path or mask is only checked by examples.
  Theorems: `MoveAttrs.exitGroup_partial`, `MoveAttrs.toGroup_partial`, `MoveAttrs.toElems_partial`, `MoveAttrs.toElems_reuse_partial`, `MoveAttrs.toElems_fuel`, `MoveAttrs.group_style_violated`, `MoveAttrs.inherit_violated`, `MoveAttrs.relative_violated`, `MoveAttrs.hidden_transform_violated`, `MoveAttrs.unreadable_transform_violated`, `MoveAttrs.reuse_violated`, `MoveAttrs.child_style_violated`, `MoveAttrs.group_hidden_violated`, `MoveAttrs.child_inherit_violated`.
* **C29** Recorded editor actions can be read back: partial. Every action but Insert is read back (exact). A stored Insert is refused, and with it the whole history. Writing and reading of a single number (std) is a hypothesis.
  Theorems: `Actions.readBack_iff`, `Actions.history_iff`, `Actions.fromState_sound`, `Actions.insert_violated`, `Actions.history_violated`.
* **C30** A selection keeps pointing at the same nodes when ids are renumbered: proved. For arenas of at most 2^31 nodes, as ids are stored as 32-bit integers.
  Theorems: `Actions.selection_survives`, `Actions.no_selection`, `Actions.names_unique`, `Actions.selectedNodes_spec`.
* **C31** Lists of values survive printing and parsing: proved. integers is the property. write_parse is the round trip for any value type, list_iff the exact set of texts accepted (texts without quotation marks). Unexpected readings of texts that are not written by the printer are shown by the violated theorems.
  Theorems: `ListOf.integers`, `ListOf.write_parse`, `ListOf.list_iff`, `ListOf.rounds_enough`, `ListOf.wrong_item_violated`, `ListOf.comma_space_violated`, `ListOf.quoted_item`, `ListOf.integers32`.
* **C32** Source positions are reported as line and column: proved. 
  Theorems: `LineCol.position_correct`, `LineCol.position_round_trip`, `LineCol.position_monotone`.
* **C33** Qualified names keep their spelling and are compared by namespace: proved. 
  Theorems: `Names.new_uri_value`, `Names.new_none`, `Names.prefix_eq_iff`, `Names.id_eq_expanded`, `Names.id_eq_refl`, `Names.id_eq_symm`, `Names.id_eq_trans`, `Names.parseAttrId_expanded`, `Names.parseAttrId_eq`, `Names.parseAttrId_spelling`, `Names.attrNew_name`.
* **C34** Identifiers are the XML names: partial. Proved for names that start with an ASCII character; otherwise expect_ident panics (expectIdent_panic_iff). The name characters are those of XML except U+00D6 (nameStart_iff).
  Theorems: `Parse.expectIdent_spec`, `Parse.expectIdent_panic_iff`, `Parse.nameStart_iff`, `Parse.nameChar_iff`.
* **C35** Integers parse to their decimal value or fail: partial. Proved for 64 bits. The 32 bit parser wraps around instead of failing (i32_violated); it is right exactly for values that fit (i32_partial).
  Theorems: `Number.i64_spec`, `Number.i32_partial`, `Number.i32_violated`.
* **C36** Expectations of the value parser succeed exactly on the expected text: proved. expect_ident_matching for identifiers that start with a one-byte character (else it panics, C34).
  Theorems: `Parse.expectChar_spec`, `Parse.expectDone_spec`, `Parse.expectStr_spec`, `Parse.expectIdentMatching_spec`, `Parse.whitespace_iff`.
* **C37** The prefix that is put in front of ids: partial. The first component of the path is used instead of the file name, so all files below one directory share a prefix (generate_violated).
  Theorems: `PrefixIds.generate_spec`, `PrefixIds.generate_violated`.
* **C38** Lists of commands are read as they are spelled: proved. Exact characterisation of the accepted lists, also with the model of the number parser of the code.
  Theorems: `Actions.parseCommands_iff`, `Actions.parseCommands_f32_iff`, `Actions.command_not_number`.
* **C39** The editing state is kept in the document: partial. The history is always kept by Actor::snapshot. The selection is kept exactly if it was never empty before (reselect_violated). The command line writes the state only if something was selected in the same run; otherwise it drops the former history (commandLine_spec is exact).
  Theorems: `Actions.opened`, `Actions.history_kept`, `Actions.saved_valid`, `Actions.selects`, `Actions.selection_kept_iff`, `Actions.selection_kept_partial`, `Actions.reselect_violated`, `Actions.commandLine_spec`, `Actions.commandLine_violated`, `Actions.new_iff`.
* **C40** Toggling a class affects every selected element once: partial. Holds if no element is selected twice; select_more can select an element twice, and then nothing is toggled (class_violated).
  Theorems: `Actions.class_spec`, `Actions.class_partial`, `Actions.class_untouched`, `Actions.class_violated`.
* **C41** Parsing builds a well-linked tree in document order: partial. Holds for documents without style sheets. A style sheet is attached twice and so becomes its own sibling: it cannot be removed, and renumbering ends exactly if there is none. Iterating over children works in all documents.
  Theorems: `Build.parse_spec_partial`, `Build.parse_limit`, `Build.parse_children`, `Build.style_links_violated`, `Build.reorder_ends_iff`.
* **C42** Names keep their namespaces: partial. Holds if each prefix and URI is declared once in the document and no element is named with a prefix it declares itself; six kinds of documents outside of this are shown to lose or change a namespace.
  Theorems: `Namespaces.names_partial`, `Namespaces.own_violated`, `Namespaces.again_violated`, `Namespaces.synonym_violated`, `Namespaces.restore_violated`, `Namespaces.default_violated`, `Namespaces.attribute_violated`.
* **C43** Computed styles are the styles CSS computes: partial. Holds for all elements, ancestors and style sheets in which no selector follows one that does not match within a rule or at-rule, declarations come in order of specificity, only @media and @container are used, and no ancestor has an attribute and a rule for one property. Each condition is shown to be needed by a violated theorem. Selector matching is a parameter.
  Theorems: `Cascade.computed_partial`, `Cascade.plain_static`, `Cascade.unreadable_violated`, `Cascade.list_violated`, `Cascade.sibling_violated`, `Cascade.specificity_violated`, `Cascade.static_violated`, `Cascade.supports_violated`, `Cascade.inline_violated`, `Cascade.inherited_violated`.
* **C44** Shortening transforms keeps the picture: partial. Over real numbers. Holds for all lists and options with convertToShorts unless a matrix shifts by about (1, 1): translate(1 1) is taken for the identity and dropped. The tolerance of factors is that of the options unless the numbers of the matrix have fewer decimals, which loses the size of matrix(1 1 -1 1 0 0). scaleX becomes scale(x 0).
  Theorems: `Transform.run_partial`, `Transform.toMatrix_spec`, `Transform.matrix_shorter`, `Transform.toCss_move`, `Transform.fromCss_partial`, `Transform.css_round_trip`, `Transform.shift_violated`, `Transform.integer_violated`, `Transform.decimals_violated`, `Transform.shorts_violated`, `Transform.scaleX_violated`.
* **C45** Applying a transform to path data draws the transformed path: partial. Over real numbers. Holds for every matrix without arcs. For arcs it holds for invertible matrices exactly if the signs of a and d differ when orientation is reversed; matrix(0 1 1 0 0 0) and matrix(-1 2 -1 1 0 0) draw arcs the wrong way. Arcs with first radius 0, and small circles that become nearly circles, get NaN.
  Theorems: `Apply.apply_partial`, `Apply.apply_some`, `Apply.apply_draws_partial`, `Apply.arc_image_iff`, `Apply.arc_exists`, `Apply.arc_unique`, `Apply.draws_exists`, `Apply.draws_unique`, `Apply.direction_violated`, `Apply.swap_violated`, `Apply.shear_violated`, `Apply.flat_violated`, `Apply.small_violated`.
* **C46** Paths that replace shapes draw the same: partial. Over real numbers. Straight shapes: all lengths and precisions, corners within half a unit. Round shapes: numbers with no more decimals than are kept; otherwise rounding is amplified (0.3 instead of 0.0005 in the witness). Rectangles without width, negative and absent radii, rules for ellipse, children and percentages are shown to be treated wrongly.
  Theorems: `Shapes.straight_partial`, `Shapes.round_partial`, `Shapes.names_partial`, `Shapes.arcs_kept`, `Shapes.removed_spec`, `Shapes.rect_kept_iff`, `Shapes.line_kept_iff`, `Shapes.poly_removed_iff`, `Shapes.ellipse_circle_partial`, `Shapes.ellipse_kept_iff`, `Shapes.flat_violated`, `Shapes.negative_violated`, `Shapes.auto_violated`, `Shapes.rounding_violated`, `Shapes.start_violated`, `Shapes.ellipse_names_violated`, `Shapes.children_violated`, `Shapes.percent_violated`.
* **C47** Removing empty and unused elements keeps what is drawn: partial. For all documents and options: exactly the empty texts and containers go away, no drawn letter is lost, everything that is not a container stays, what is shown and what can be referred to in definitions stays. Violated for spaces in a tspan, glyphs (outline in the attribute d), scripts and fonts within defs, properties inherited from within defs, and a text around an empty tspan needs a second run. The computed style is a parameter that depends on the element and its ancestors.
  Theorems: `Empty.text_spec`, `Empty.text_letters_partial`, `Empty.containers_spec`, `Empty.containers_solid_partial`, `Empty.containers_again`, `Empty.defs_shown`, `Empty.defs_targets_partial`, `Empty.defs_clean`, `Empty.words_violated`, `Empty.nested_violated`, `Empty.glyph_violated`, `Empty.script_violated`, `Empty.inherit_violated`.
* **C48** Collapsing groups keeps the picture: partial. The same picture for all documents without animations, stylesheets and elements with opacity or display within each other, whose groups have transforms, inherited properties, effects and attributes without an effect, outside of texts. Each condition is shown to be needed by a violated theorem, one of them a panic. What goes away and what stays is shown for all documents.
  Theorems: `Collapse.collapse_partial`, `Collapse.collapse_clean`, `Collapse.collapse_does`, `Collapse.animated_kept`, `Collapse.switch_kept`, `Collapse.opacity_violated`, `Collapse.display_violated`, `Collapse.animated_violated`, `Collapse.panic_violated`, `Collapse.meaning_violated`, `Collapse.style_violated`, `Collapse.fresh_violated`, `Collapse.selector_violated`, `Collapse.use_violated`, `Collapse.again_violated`.
* **C49** Rounding moves no number by more than half a unit of the last decimal: partial. Over real numbers. Nearness, failure, the second run and the order of the jobs are proved for all documents and options. Which job rounds what fails: dashes, enable-background, keySplines and the lengths of rx, ry, refX, refY, markerWidth and markerHeight are rounded by neither, single values are rounded by both, so two precisions add up; the option to remove px does nothing; a small view box gets no size.
  Theorems: `Values.numbers_near`, `Values.fails_iff`, `Values.second_run`, `Values.either_order`, `Values.single_tidy`, `Values.presentation_tidy`, `Values.list_tidy`, `Values.order_kept`, `Values.skipped_violated`, `Values.lists_only_violated`, `Values.twice_violated`, `Values.small_violated`, `Values.default_px_violated`.
* **C50** Merging paths keeps what is drawn: partial. What is merged is characterised exactly for all children, and the subpaths drawn with their attributes stay, for any test for intersections. The picture stays if that test finds all pairs that may not be painted at once; the test that the job makes (from path data over segments, arcs and hulls, C23, C62, C63) is proved to do so but for the width of strokes, for path data that the conversion to segments keeps. It changes in a switch, with pathLength, for wide strokes that overlap, for references in rules that apply sometimes or into other documents, and if rules depend on the place among the children.
  Theorems: `MergePaths.merge_runs`, `MergePaths.merge_drawn`, `MergePaths.others_kept`, `MergePaths.ids_kept`, `MergePaths.merge_picture_partial`, `MergePaths.stop_needed`, `MergePaths.fails_only`, `MergePaths.switch_violated`, `MergePaths.dynamic_violated`, `MergePaths.remote_violated`, `MergePaths.computed_violated`, `MergePaths.length_violated`, `MergePaths.wide_violated`, `MergePaths.test_no`, `MergePaths.test_total`, `MergePaths.merge_picture_test`.
* **C51** Applying a transform keeps what a path looks like: partial. Outline, stroke and references stay for all paths whose transform, and whose stroke but for its colour and width, come from their own attributes, for any way to draw strokes that goes with similarities. Witnesses show that the picture changes otherwise: widths set by rules, inherited dashes, values that say inherit, pathLength, vector-effect in rules, inherited gradients, references to other documents, the same transform in a rule, rules under conditions, transform-origin. The option for strokes does the opposite of what it says. Numbers are real.
  Theorems: `Stroke.apply_picture_partial`, `Stroke.others_kept`, `Stroke.left_alone`, `Stroke.applied`, `Stroke.fails_only`, `Stroke.rule_violated`, `Stroke.inherited_violated`, `Stroke.inherited_width_violated`, `Stroke.effect_violated`, `Stroke.precision_violated`, `Stroke.dashes_violated`, `Stroke.length_violated`, `Stroke.server_violated`, `Stroke.remote_violated`, `Stroke.twice_violated`, `Stroke.dynamic_violated`, `Stroke.origin_violated`, `Stroke.option_violated`, `Stroke.panic_violated`.
* **C52** Removing view boxes or dimensions keeps the picture: partial. What is removed is characterised exactly for all documents. The picture stays on every canvas for root elements, for symbols used without a size, and for patterns in user space that begin in the origin; witnesses show that it changes for other symbols (exactly if the instance has another size) and patterns, and if styles give a size. Removing dimensions keeps the picture on a canvas of the same size and centres and scales it on others, but also strips nested svg elements, whose content then grows although the view box matches, and documents whose view box does not parse. Numbers are rational.
  Theorems: `Viewport.view_box_outline`, `Viewport.off`, `Viewport.view_box_partial`, `Viewport.symbol_iff`, `Viewport.dimensions_outline`, `Viewport.dimensions_partial`, `Viewport.dimensions_scaled`, `Viewport.opposite`, `Viewport.symbol_violated`, `Viewport.pattern_violated`, `Viewport.offset_violated`, `Viewport.template_violated`, `Viewport.style_violated`, `Viewport.nested_violated`, `Viewport.ignored_violated`.
* **C53** Removing unknown and default attributes keeps all styles: partial. The tables of elements, attributes and defaults are modelled in full. What goes and what stays is shown for all documents; exactly which attributes go for documents without conditional rules. Properties stay where styles are computed as by CSS, selectors ask for names, classes and ids only, and shorthands are not used. Witnesses show changes otherwise: use, relative values, shorthands, attributes against rules, selectors on attributes, kerning, transform-origin, the defaults of divisor and of percentages, mask-type and white-space, text in links; and the job fails if a selector cannot be read.
  Theorems: `Unknowns.outline_kept`, `Unknowns.conforming_partial`, `Unknowns.styles_partial`, `Unknowns.attributes_known`, `Unknowns.safe_kept`, `Unknowns.removed_iff`, `Unknowns.defaults_partial`, `Unknowns.succeeds_partial`, `Unknowns.off_same`, `Unknowns.use_violated`, `Unknowns.relative_violated`, `Unknowns.shorthand_violated`, `Unknowns.rule_violated`, `Unknowns.selector_violated`, `Unknowns.kerning_violated`, `Unknowns.origin_violated`, `Unknowns.divisor_violated`, `Unknowns.percent_violated`, `Unknowns.defaults_violated`, `Unknowns.property_violated`, `Unknowns.link_violated`, `Unknowns.errors_violated`.
* **C54** Removing empty, deprecated and group attributes changes nothing that is seen or said: partial. What each job removes is characterised exactly for all documents. Properties and conditions stay for empty attributes; languages, namespaces and animations only if none of their attributes is empty. Groups keep all properties but vector-effect and transform-origin, of which the second matters for the group itself. Deprecated attributes: selectors are met as before unless they use :not on attributes, names with upper case, other prefixes for XML or any prefix; the language stays only if lang and xml:lang agree. Witnesses show the changes otherwise.
  Theorems: `Retain.empty_removed`, `Retain.empty_styles`, `Retain.empty_conditions`, `Retain.empty_meaning_partial`, `Retain.group_removed`, `Retain.group_styles_partial`, `Retain.deprecated_removed`, `Retain.deprecated_selectors_partial`, `Retain.deprecated_styles_partial`, `Retain.deprecated_language_partial`, `Retain.empty_language_violated`, `Retain.empty_namespace_violated`, `Retain.empty_set_violated`, `Retain.empty_values_violated`, `Retain.empty_selector_violated`, `Retain.group_origin_violated`, `Retain.group_inherit_violated`, `Retain.deprecated_language_violated`, `Retain.deprecated_not_violated`, `Retain.deprecated_case_violated`, `Retain.deprecated_prefix_violated`.
* **C55** Removing useless strokes and fills keeps what is drawn: partial. Fills, strokes and all other properties stay for all shapes that are not within a shape and whose own style says nothing about fills and strokes; markers stay if there are none or marker-end is an attribute and the width is not zero. What is left alone and what goes is shown for all documents. Witnesses show changes otherwise: styles that win over the attributes, marker-start and marker-mid, widths of zero, the shorthand marker, content of shapes, animations; and removeNone removes shapes that are drawn.
  Theorems: `Unpainted.succeeds`, `Unpainted.picture_partial`, `Unpainted.none_partial`, `Unpainted.others_kept`, `Unpainted.skips`, `Unpainted.useless_gone`, `Unpainted.style_violated`, `Unpainted.fill_style_violated`, `Unpainted.marker_violated`, `Unpainted.marker_width_violated`, `Unpainted.marker_shorthand_violated`, `Unpainted.nested_violated`, `Unpainted.animation_violated`, `Unpainted.none_violated`.
* **C56** Removing hidden elements keeps what is seen and what is referred to: partial. What goes and that nothing is added is shown for all documents and styles. What is rendered and visible stays, and so do targets of references that are not hidden themselves, if styles are computed as by CSS, visibility is said by attributes only, every defs is in plain sight and no path directly in a defs has one command; without style sheets and style attributes the styles are shown to be right. Witnesses show changes otherwise: rules under conditions, visibility in styles, gradients and templates that are hidden themselves, references other than use, use in clipping paths, used content of transparent groups, markers of used paths, style sheets in transparent groups, switch, and nested defs, whose result varies from run to run; and an empty link of a use is a panic.
  Theorems: `Hidden.nothing_new`, `Hidden.succeeds_partial`, `Hidden.shown_kept_partial`, `Hidden.picture_kept_partial`, `Hidden.targets_kept_partial`, `Hidden.careful_partial`, `Hidden.transparent_gone`, `Hidden.flat_gone`, `Hidden.hidden_gone`, `Hidden.unreferenced_gone`, `Hidden.off_kept`, `Hidden.order_partial`, `Hidden.panic_violated`, `Hidden.bytes_violated`, `Hidden.media_violated`, `Hidden.visible_violated`, `Hidden.gradient_violated`, `Hidden.defs_violated`, `Hidden.text_path_violated`, `Hidden.clip_violated`, `Hidden.used_violated`, `Hidden.template_violated`, `Hidden.marker_violated`, `Hidden.sheet_violated`, `Hidden.switch_violated`, `Hidden.order_violated`.
* **C57** Merging style elements keeps the rules that apply: partial. That nothing else changes, that at most one style element is left and that a second run changes nothing (if no element has two media attributes, which XML forbids) is shown for all documents. The rules that count stay, with their order and media queries, if every CSS style element is read completely by the parser, has its type in lower case and a media query that can be read, is not in a foreignObject, and only the first one begins with rules such as @import. Witnesses show that each of these conditions is needed.
  Theorems: `Merge.rules_kept_partial`, `Merge.others_kept`, `Merge.single`, `Merge.fixed`, `Merge.again`, `Merge.off`, `Merge.two_merged`, `Merge.import_violated`, `Merge.media_import_violated`, `Merge.syntax_violated`, `Merge.type_violated`, `Merge.foreign_violated`, `Merge.media_violated`, `Merge.nested_violated`, `Merge.nested_media_violated`.
* **C58** Inlining style rules keeps the value of every property: partial. Values stay for all documents if all rules are inlined, or if those that stay do not declare the same properties and do not ask for classes, ids and attributes that go; style elements must have no media attribute, no named media queries and readable style attributes. What goes and what is left alone is shown for all documents. Selectors are matched by a parameter that has to be right; pseudo-classes are taken to depend on the structure only. Witnesses show that values change otherwise.
  Theorems: `Inline.values_kept_partial`, `Inline.all_inlined_partial`, `Inline.elements_kept`, `Inline.attrs_kept`, `Inline.referenced_kept`, `Inline.selectors_kept`, `Inline.off`, `Inline.specificity_violated`, `Inline.class_violated`, `Inline.class_attr_violated`, `Inline.attr_violated`, `Inline.media_attr_violated`, `Inline.media_rule_violated`, `Inline.two_sheets_violated`, `Inline.nested_violated`, `Inline.style_attr_violated`, `Inline.named_media_violated`, `Inline.width_violated`.
* **C59** Minifying styles keeps the value of every property and never fails: partial. Values stay for all documents whose selectors are not empty, where nested rules do not ask for what their parent does not match, no selector asks for the style attribute, and elements that are not of SVG have no name, id or class of their own that a selector asks for. When the job fails, which selectors stay and what else stays is shown exactly. Violated: a style attribute that does not parse is a panic; elements outside of the SVG namespace do not count as users; a rule with nested rules loses its selectors; removing an empty style attribute changes what [style] matches. Minification by lightningcss is a parameter that has to be right.
  Theorems: `Minify.values_kept_partial`, `Minify.fails_iff`, `Minify.elements_kept`, `Minify.selectors_iff`, `Minify.scripts_kept`, `Minify.panic_violated`, `Minify.foreign_violated`, `Minify.nested_violated`, `Minify.style_selector_violated`.
* **C60** Sorting definitions only reorders the children of defs, predictably: partial. The order is shown exactly for defs elements with at most 20 child nodes (which the standard library sorts by insertion) or with elements only, and that nothing is lost for all. Violated: comments and text change places with every run; with more child nodes the comparison is not an order and the standard library may panic; the first child keeps its previous sibling, so that removing it later, as RemoveDesc does, loses all other definitions instead.
  Theorems: `SortDefs.kept`, `SortDefs.arranged_partial`, `SortDefs.unique`, `SortDefs.again_partial`, `SortDefs.predictable`, `SortDefs.off`, `SortDefs.again_violated`, `SortDefs.panic_violated`, `SortDefs.definitions_lost_violated`, `SortDefs.desc_violated`, `SortDefs.len_written`.
* **C61** Cleaning up attributes changes only whitespace that separates words: partial. What changes, what stays and that the job is idempotent is shown for all documents and options; attributes that are read as lists of words are read the same. Violated for attributes in which whitespace has a meaning: the glyph of a space in SVG fonts, values asked for by selectors, comments in event handlers, names of filter results.
  Theorems: `CleanAttrs.words_kept`, `CleanAttrs.list_kept`, `CleanAttrs.joined`, `CleanAttrs.off`, `CleanAttrs.again`, `CleanAttrs.glyph_violated`, `CleanAttrs.selector_violated`, `CleanAttrs.handler_violated`, `CleanAttrs.result_violated`, `CleanAttrs.white_iff`.
* **C62** The test for intersecting paths finds every overlap: partial. Shown for all paths over any ordered field, arcs over the real numbers, with exact arithmetic instead of f64: an answer without panic, no means that a line runs between, crossings and overlaps are found, yes means that hulls meet. Giving up after 10,000 rounds is excluded for subpaths whose numbers of control points have a product of at most 10,000. Arcs are taken to begin where the piece before ends. Not so: the answer depends on the order of paths that touch, a line along an axis does not intersect itself, and yes is also said of outlines without a common point.
  Theorems: `Gjk.intersects_total`, `Gjk.intersects_no`, `Gjk.intersects_no_real`, `Gjk.intersects_yes`, `Gjk.intersects_empty`, `Gjk.crossing_found`, `Gjk.overlap_found`, `Gjk.ArcR.covered`, `Gjk.symmetric_violated`, `Gjk.same_violated`, `Gjk.outlines_violated`.
* **C63** Arc commands draw the arc they describe: partial. Reading arc commands is proved to give the one arc that SVG describes. Writing is proved to keep all points unless the arc is nearly half of an ellipse; there it may not end (exactly characterised) and may move points by far more than the tolerance (witness). Arithmetic is exact: rounding of f64 is not modelled.
  Theorems: `ArcTo.fromArcTo_none_iff`, `ArcTo.fromArcTo_draws`, `ArcTo.draws_unique`, `ArcTo.fromArcTo_unique`, `ArcTo.fromArcBy_draws`, `ArcTo.toArcTo_draws`, `ArcTo.toArcTo_fromArcTo`, `ArcTo.toArcTo_radii`, `ArcTo.toArcTo_half`, `ArcTo.toArcTo_none_iff`, `ArcTo.reverse_points`, `ArcTo.clamp_points`, `ArcTo.subdivide_points`, `ArcTo.toArcTo_ends_violated`, `ArcTo.toArcTo_tolerance_violated`, `ArcTo.gcd_spec`.
* **C64** Removing paths outside of the canvas does not change the picture: partial. Shown for all documents whose path data the conversion to segments keeps (C23), with exact arithmetic: what filling may paint inside of the view box is the same; all else stays; no panic; paths beyond a side go. Violated for strokes, for what is seen outside of the view box, for paths that are used elsewhere, and for the ends of lines.
  Theorems: `Canvas.go_apart`, `Canvas.stay_seen`, `Canvas.fate_total`, `Canvas.run_shown_partial`, `Canvas.run_still`, `Canvas.run_unknown`, `Canvas.run_total`, `Canvas.beyond_go`, `Canvas.seen_stays`, `Canvas.stroke_violated`, `Canvas.viewport_violated`, `Canvas.use_violated`, `Canvas.close_violated`.
* **C65** Removing XLink keeps links, tooltips and everything else: partial. Links, places and tooltips of every element are kept and the attributes that stay are characterised; the claims about other attributes and well-formedness are refuted, with exact conditions.
  Theorems: `Xlink.run_kept_partial`, `Xlink.run_total_iff`, `Xlink.foreign_kept`, `Xlink.foreign_gone`, `Xlink.dangling_iff`, `Xlink.foreign_violated`, `Xlink.chance_violated`, `Xlink.dangling_violated`, `Xlink.legacy_violated`, `Xlink.title_violated`, `Xlink.panic_violated`.
* **C66** Every result is written to its own place and nothing else is touched: partial. For one input path and an output that is the input or apart from it: every result arrives, nothing else changes, whatever the schedule. Refuted for several inputs, outputs within the input, the flag without value and errors while writing.
  Theorems: `Walk.walk_written`, `Walk.walk_else`, `Walk.walk_same`, `Walk.walk_fails`, `Walk.walk_nothing`, `Walk.walk_goes_on`, `Walk.inplace_violated`, `Walk.within_violated`, `Walk.several_violated`, `Walk.torn_violated`, `Walk.dot_violated`, `Walk.extension_violated`.
* **C67** A selector selects the elements that it matches: partial. Order, and that no element is given twice, for all selectors. Which elements are given is that of CSS for all documents whose values are written as they are and all selectors of names in lower case, ids, classes, attributes without a namespace, the root, first and last children, with combinators, :not and :is; other places only if addresses are not used twice. Exactly what names, attributes, :empty and :link give. Violated for names with upper case, places, :scope, *| attributes, comments in empty elements, xlink:href.
  Theorems: `Select.select_order`, `Select.select_nodup`, `Select.select_partial`, `Select.naive_partial`, `Select.name_iff`, `Select.attr_iff`, `Select.empty_iff`, `Select.link_iff`, `Select.camel_violated`, `Select.attr_camel_violated`, `Select.prefix_violated`, `Select.empty_violated`, `Select.nth_violated`, `Select.scope_violated`, `Select.value_violated`, `Select.case_violated`, `Select.link_violated`, `Select.nth_cache_violated`, `Select.class_violated`.
* **C68** Turning style attributes into attributes keeps the look: partial. Exactly which attributes and declarations are there afterwards, for every element. Values are kept for properties that no converted declaration sets, and for presentation attributes of SVG elements if all declarations of the property are converted and style sheets do not set it. Violated for style sheets, shorthands, elements of HTML, gradients, declarations that stay, and selectors with [style].
  Theorems: `StyleAttr.attrs_iff`, `StyleAttr.style_iff`, `StyleAttr.unstyled_same`, `StyleAttr.distinct_kept`, `StyleAttr.outline_kept`, `StyleAttr.everywhere`, `StyleAttr.table_presents`, `StyleAttr.untouched_kept`, `StyleAttr.values_kept_partial`, `StyleAttr.sheet_violated`, `StyleAttr.important_violated`, `StyleAttr.shorthand_violated`, `StyleAttr.html_violated`, `StyleAttr.gradient_violated`, `StyleAttr.retained_violated`, `StyleAttr.selector_violated`.
* **C69** Patterns remove the attributes that they match: partial. Exactly which attributes are removed, for all patterns, separators and documents, and exactly when there is an error. This is what the documentation says if no part is empty or has alternatives outside of parentheses; violated for those, and for currentColor in other attributes than fill and stroke.
  Theorems: `RemoveAttrs.removed_iff`, `RemoveAttrs.error_iff`, `RemoveAttrs.run_exact`, `RemoveAttrs.run_error`, `RemoveAttrs.parts_unique`, `RemoveAttrs.finds_one`, `RemoveAttrs.finds_many`, `RemoveAttrs.documented_partial`, `RemoveAttrs.omission_violated`, `RemoveAttrs.alternatives_violated`, `RemoveAttrs.preserve_violated`.
* **C70** Backgrounds for filters are only dropped if they do nothing: partial. Exactly what becomes of every attribute of every document, that nothing else changes and that a second run changes nothing. With a filter the background that counts stays the same if no style attribute asks for a new one and none fits on svg, mask or pattern; violated for style attributes and for regions that begin somewhere else.
  Theorems: `Background.element_fates`, `Background.fate_unique`, `Background.fates_unique`, `Background.run_exact`, `Background.run_else`, `Background.run_twice`, `Background.counts_partial`, `Background.style_violated`, `Background.offset_violated`.
* **C71** currentColor everywhere but in masks: partial. Exactly which colours are converted, for all documents; every colour that an element outside of masks sets is then that of the text around the document; the default changes nothing. Violated: colours of style sheets and colours to fall back to stay, and masks can change by the colour that they inherit.
  Theorems: `Colors.run_exact`, `Colors.run_same`, `Colors.said_current`, `Colors.uses_outer`, `Colors.mask_exact`, `Colors.sheet_violated`, `Colors.fallback_violated`, `Colors.mask_violated`.
* **C72** No scripts are left, and only scripts are removed: partial. For all documents: no script element of SVG, attribute of the table of events or `javascript:` link is left, a second run changes nothing, clean documents stay as they are, and the search then finds nothing. All else stays if no link to a script has a text between other things; otherwise things are lost. Scripts of HTML, events not in the table and other spellings of addresses stay.
  Theorems: `Scripts.run_safe`, `Scripts.run_kept_partial`, `Scripts.run_off`, `Scripts.run_clean`, `Scripts.run_twice`, `Scripts.search_after`, `Scripts.dissolve_links`, `Scripts.lost_violated`, `Scripts.text_violated`, `Scripts.html_violated`, `Scripts.event_violated`, `Scripts.events_missing`, `Scripts.url_violated`, `Scripts.url_spellings`, `Scripts.search_violated`.
* **C73** Precheck refuses exactly what cannot be kept: partial. Exactly which documents are accepted, for all documents; the error is about the first element that is refused; the document is never changed. Violated: the option `failFast` is ignored, references within the document are refused and external ones in `href` are accepted.
  Theorems: `Precheck.accepted_iff`, `Precheck.error_first`, `Precheck.run_same`, `Precheck.run_off`, `Precheck.log_violated`, `Precheck.internal_violated`, `Precheck.external_violated`, `Precheck.missed_violated`.
* **C74** Attributes and classes given for the root element are added to it: partial. Nothing that was there changes, and for names without a prefix exactly the missing ones are added, for all documents and options. Violated: prefixes that are not declared on the root element, names with two colons, elements without classes, `className`.
  Theorems: `RootAttrs.addAll_new`, `RootAttrs.addAll_plain_partial`, `RootAttrs.run_changed`, `RootAttrs.classes_added`, `RootAttrs.classes_neither`, `RootAttrs.prefix_violated`, `RootAttrs.twice_violated`, `RootAttrs.panic_violated`, `RootAttrs.missing_violated`, `RootAttrs.replaced_violated`, `RootAttrs.order_violated`, `RootAttrs.aliased_violated`.
* **C75** Gradients of one stop are replaced by their colour, and nothing looks different: partial. For documents with one `svg` element, what is left and how paints are changed in closed form; every paint looks the same if ids are unique, templates have stops and colours of single stops are found and opaque, and no gradient of one stop is left. The other cases are violations. Missing: no theorem says that the declaration of the prefix xlink stays while it is in use; an edit of the model that always removes it is not noticed.
  Theorems: `Gradients.run_single`, `Gradients.run_off`, `Gradients.run_seen_partial`, `Gradients.run_none_left`, `Gradients.run_lost`, `Gradients.color_violated`, `Gradients.template_violated`, `Gradients.geometry_violated`, `Gradients.chain_violated`, `Gradients.sheet_violated`, `Gradients.declaration_violated`, `Gradients.order_violated`.
* **C76** A curve that becomes an arc looks the same: partial. Exactly which curves become arcs, and which arcs; the ends stay; the arc goes through the middle of the curve if the chord is seen in an obtuse angle from there; a bound for the distance from the circle of all of the curve. That the arc looks like the curve is violated for curves of more than half of a circle, loops, and half of the half circles.
  Theorems: `Fit.fit_circle`, `Fit.fit_ends`, `Fit.fit_iff`, `Fit.fit_shorter`, `Fit.fit_middle_partial`, `Fit.fit_same`, `Fit.fit_near_partial`, `Fit.arcCurves_alike`, `Fit.turn_violated`, `Fit.loop_violated`, `Fit.half_violated`.
* **C77** Parts of a curve and points along it are on the curve: partial. Parts, halves and reversals of curves run exactly along the curve; places that are found are right; the ends, quarters and all points of lines are found; the coordinates are exactly known, with a bound for the distance of the curve from the line through them. That each point of a curve is found is proved only for these; short lines violate it, closed curves violate that the coordinates follow the curve, and the announced number of coordinates is wrong.
  Theorems: `Curves.subdivide_along`, `Curves.reverse_along`, `Curves.newQuad_curve`, `Curves.clampT_along`, `Curves.clampT_end`, `Curves.tAt_sound`, `Curves.tAt_mono`, `Curves.tAt_seed`, `Curves.tAt_straight`, `Curves.subdivideAt_along`, `Curves.clampAt_along`, `Curves.chordDist2_least`, `Curves.coords_points`, `Curves.coords_near`, `Curves.coords_closed_violated`, `Curves.coords_len_violated`, `Curves.tAt_short_violated`.
* **C78** Parts of an arc and points along it are on the arc: partial. Places are found exactly, for all points of arcs of up to a turn; parts run along the arc; lengths are exact for circles and bounded for ellipses; tangents have length one and the direction of the arc; coordinates are exactly known, with a bound for the distance of the line through them. Violated: coordinates of arcs that start at one radian, the number of coordinates, lengths of reversed arcs, curves of small arcs, and the tolerance for points beside the arc.
  Theorems: `Arcs.tAt_sound`, `Arcs.tAt_complete`, `Arcs.tAt_turn`, `Arcs.subdivideAt_along`, `Arcs.clampAt_along`, `Arcs.length_circle`, `Arcs.length_between`, `Arcs.tangent_dir`, `Arcs.toCurve_points`, `Arcs.coords_points`, `Arcs.coords_near`, `Arcs.coords_start_violated`, `Arcs.coords_len_violated`, `Arcs.length_reverse_violated`, `Arcs.toCurve_small_violated`, `Arcs.tAt_tolerance_violated`.
* **C79** Combining paths gives the combined area, drawn along the paths: partial. Polygons go through points of the paths; edges get the entry they belong to; each ring becomes a closed path that follows its vertices by lines or along parts of the paths; areas are combined as the operation demands, under the contract of the external crate. Violated: no panics, loops of a single curve, transforms of the elements, and the rule of a single selected path. Missing: a bound on the area between the polygons and the outcome.
  Theorems: `Overlay.flatten_points`, `Overlay.find_match`, `Overlay.find_only`, `Overlay.rebuild_covers`, `Overlay.booleanOp_covers`, `Overlay.combine_area`, `Overlay.action_kept`, `Overlay.action_area`, `Overlay.action_single_iff`, `Overlay.rebuild_panics`, `Overlay.rebuild_panic_violated`, `Overlay.rebuild_same`, `Overlay.rebuild_loop_violated`, `Overlay.emit_arc`, `Overlay.action_transform_violated`, `Overlay.action_transform`.
* **C80** The linter reports what is unused and nothing that is used: partial. Exactly which declarations, ids and default values are reported, for all documents; right for prefixes in the usual documents. Violated: the namespace of SVG itself, a prefix of the declaring element, two prefixes of one namespace, ids in selectors, inherited properties.
  Theorems: `Lint.reportNs_iff`, `Lint.reportNs_nodup`, `Lint.svg_default_violated`, `Lint.reportIds_iff`, `Lint.reportIds_nodup`, `Lint.selector_violated`, `Lint.default_iff`, `Lint.own_prefix_violated`, `Lint.second_prefix_violated`, `Lint.usual_iff`, `Lint.default_attr_violated`.
* **C81** A report shows the place in the source it is about: partial. The lines shown are those of the source; the marks are under the range exactly for ASCII on one line. Violated: panics, the slash of an empty element, other characters, ranges over several lines.
  Theorems: `Report.context_shows`, `Report.naive_panics_iff`, `Report.naive_word`, `Report.naive_slash_violated`, `Report.marks_iff`, `Report.marks_violated`, `Report.display_element`, `Report.display_panics_iff`.
* **C82** The outcome of linting reflects the problems, for shells and editors: partial. What is reported, the outcome and the numbers are right for all rules and texts. Violated: the exit status, the option for the configuration, the printed configuration, and the removal of repaired problems in an editor.
  Theorems: `Check.mem_reports`, `Check.lint_ok_iff`, `Check.lint_counts`, `Check.check_exit_violated`, `Check.check_exit_partial`, `Check.check_config_violated`, `Check.check_outcomes`, `Check.config_unnamed`, `Check.printed_violated`, `Check.printed_some`, `Check.session_shows`, `Check.session_right_iff`, `Check.stale_violated`.
* **C83** Replacing duplicate paths by references changes nothing that is drawn: partial. What is drawn is kept for documents with one `svg` element whose duplicate paths have no children, are outside of `defs` and have harmless attributes. Violated: the prefix is not declared where it is used, ids move although they are referenced, nested `svg` elements lose shapes.
  Theorems: `Reuse.run_draws_partial`, `Reuse.same_iff`, `Reuse.run_uses`, `Reuse.run_unbound_violated`, `Reuse.run_id_violated`, `Reuse.nested_lost_violated`, `Reuse.referred_lost_violated`, `Reuse.run_keeps_ids`, `Reuse.tidy_others`.
* **C85** JSX made from a document stands for the document: partial. The JSX reads as the document exactly for the documents `Faithful` describes. Violated by style sheets with rules, texts with braces or markup characters, prefixed elements, important declarations, processing instructions and unknown hyphenated attributes.
  Theorems: `Jsx.toJsx_shows_iff`, `Jsx.docJsx_shows_iff`, `Jsx.attrName_spells`, `Jsx.known_kept`, `Jsx.known_inj`, `Jsx.dropped_iff`, `Jsx.stylesheet_violated`, `Jsx.text_violated`, `Jsx.prefixed_violated`, `Jsx.important_violated`, `Jsx.instruction_violated`, `Jsx.unknown_violated`, `Jsx.blank_violated`, `Jsx.class_violated`.
* **C84** A module made from a document loads: partial. Every value identifier is declared. Types, distinctness of names and the index hold exactly under the stated conditions, which fail for ordinary options and file names.
  Theorems: `Jsx.transform_resolved`, `Jsx.transform_runs`, `Jsx.transform_imports`, `Jsx.transform_typed_iff`, `Jsx.transform_distinct_iff`, `Jsx.index_exported_iff`, `Jsx.index_distinct_iff`, `Jsx.componentName_spec`, `Jsx.componentName_nil_iff`, `Jsx.ref_type_violated`, `Jsx.props_type_violated`, `Jsx.react_violated`, `Jsx.mixed_import_violated`, `Jsx.preact_violated`, `Jsx.index_named_violated`, `Jsx.index_again_violated`, `Jsx.separator_violated`, `Jsx.small_name_violated`.
* **C86** The configuration of a component does what it says: partial. The attributes of the `svg` element, the title and the description alone, replacements that do not chain and the elements of React Native are as configured. Title and description together are covered one at a time. Violated: labels without an id, nested titles, chained replacements, React Native elements left without children.
  Theorems: `Jsx.svgAttrs_value`, `Jsx.conditional_absent`, `Jsx.conditional_given`, `Jsx.replace_spec`, `Jsx.replace_order`, `Jsx.nativeName_iff`, `Jsx.toNative_components`, `Jsx.replace_order_violated`, `Jsx.label_lost_violated`, `Jsx.nested_title_violated`, `Jsx.native_unclosed_violated`, `Jsx.preset_sound`, `Jsx.preset_readable`, `Jsx.icon_size`.
* **C87** Durations keep their length: partial. Every duration of the grammar keeps its length for readers that take `.5`; it stays in the strict grammar exactly if its last field is not below one. Numbers are exact decimals with runs of at most six digits; `f32` rounding is not modelled.
  Theorems: `Clock.duration_kept`, `Clock.duration_strict_iff`, `Clock.offset_kept_iff`, `Clock.half_second_violated`.
* **C88** Animations begin and end when they did: partial. Exact condition for begin values with offsets, events and other elements. Violated by negative offsets with a colon and by names with a minus sign. `repeat`, `accessKey` and `wallclock` are modelled but not covered by the theorem.
  Theorems: `Clock.begin_kept_iff`, `Clock.begin_kept_partial`, `Clock.wait_kept_iff`, `Clock.colon_violated`, `Clock.escaped_violated`, `Clock.dash_violated`, `Clock.reversed_violated`.
* **C89** Removing attributes by selector removes those of the selected elements: partial. Proved for selectors that ask for listed attributes of the element itself only and are treated as CSS says (names in lower case, no `:nth-child` but first and last, no `:empty`, `:link`, `:scope`), and for lists of items of which none asks for a listed attribute. That nothing else changes is proved for all selectors. Violated by selectors that ask for listed attributes of ancestors or siblings.
  Theorems: `BySelector.remove_partial`, `BySelector.items_partial`, `BySelector.others_kept`, `BySelector.job_fails_iff`, `BySelector.chain_violated`, `BySelector.cascade_violated`, `BySelector.siblings_violated`.
* **C90** Parsing with xml5ever keeps names in their namespaces: partial. An exact characterisation for documents with bound prefixes other than `xml`: kept iff the root has no prefix, unprefixed elements are in the namespace of SVG (or none) and no prefix has two meanings. Violated otherwise, with a panic for `xml:` attributes in front of other prefixed ones. Values of attributes and other nodes are not modelled.
  Theorems: `Sink.namespaces_kept_iff`, `Sink.parse_kept`, `Sink.panic_violated`, `Sink.foreign_violated`, `Sink.prefixed_violated`.
* **C91** Keyword values are written with the meaning they were read with: partial. Proved for all texts: what is written for a value that was read has the same words or the same meaning, and valid values of enums, `paint-order` and `preserveAspectRatio` are read. Violated for `aria-relevant="additions text"`, for `font-variant` with two words of a component or ligatures behind other words, and for white space that only Unicode knows. Types made of keywords and numbers are not modelled.
  Theorems: `Keywords.enum_read`, `Keywords.enum_kept_iff`, `Keywords.tables_kept_iff`, `Keywords.inherit_read`, `Keywords.paint_read`, `Keywords.paint_accepts`, `Keywords.paint_kept`, `Keywords.aspect_read`, `Keywords.aspect_accepts`, `Keywords.aspect_kept`, `Keywords.font_kept`, `Keywords.font_group_violated`, `Keywords.font_order_violated`, `Keywords.aria_relevant_violated`, `Keywords.nbsp_violated`, `Keywords.joined_violated`, `Keywords.font_words`.
* **C92** Lint rules report exactly the names and values that break them, at their place: partial. Proved for all tables and all elements: each rule reports exactly what breaks it, in order and with its own range. Violated for deprecated elements and invalid values with a prefix, for the range of the rest of a path with references, and for ranges of attributes with the same expanded name. The tables and the parsers of values are parameters.
  Theorems: `Rules.unknown_attrs`, `Rules.deprecated_iff`, `Rules.unknown_elem_iff`, `Rules.root_unreported`, `Rules.xlink_iff`, `Rules.invalid_iff`, `Rules.rest_place`, `Rules.prefixed_legacy_violated`, `Rules.aliased_invalid_violated`, `Rules.shared_range_violated`, `Rules.rest_place_violated`.
* **C93** Values of several numbers keep their numbers: partial. Proved for all texts: valid values are read and written with the same numbers. Violated for values with too many commas, which are made valid. Numbers are exact decimals (no rounding to f32).
  Theorems: `Boxes.viewBox_kept`, `Boxes.clip_kept`, `Boxes.enable_kept`, `Boxes.pair_kept`, `Boxes.viewBox_sound`, `Boxes.pair_sound`, `Boxes.commas_violated`, `Boxes.clip_commas_violated`, `Boxes.clip_units`, `Choice.clip_sound`, `Choice.enable_sound`.
* **C94** Values of a keyword or a number keep their meaning: partial. Proved for all texts, but for frequencies only with the units Hz and KHz; no frequency in kHz is read (violated). For min, max and repeatDur proved for numbers of at most six digits and readers that take a number without digits before its point; exactly when strict readers take it is proved too (limit_strict_iff). Numbers are exact decimals (no rounding to f32).
  Theorems: `Choice.adjust_kept`, `Choice.count_kept`, `Choice.rotate_kept`, `Choice.control_kept`, `Choice.count_iff`, `Choice.adjust_sound`, `Choice.count_sound`, `Choice.rotate_sound`, `Choice.frequency_kept_partial`, `Choice.frequency_sound`, `Choice.frequency_iff`, `Choice.khz_violated`, `Choice.limit_kept`, `Choice.repeat_kept`, `Choice.limit_strict_iff`, `Choice.control_sound`.
* **C95** Words and names keep their text: partial. Proved for all texts: what is read is written as it was, but for white space around it. Violated: valid names that do not begin with an ASCII character panic, and inputs of filters with white space behind them are not read.
  Theorems: `Words.target_panic`, `Words.target_written`, `Words.target_kept`, `Words.profile_panic`, `Words.profile_written`, `Words.profile_kept`, `Words.in_panic`, `Words.in_written`, `Words.in_iff`, `Words.in_space_violated`, `Words.flag_panic`, `Words.flag_written`, `Words.flag_kept`, `Words.undefined_written`, `Words.undefined_kept`, `Words.boolean_panic`, `Words.boolean_written`, `Words.boolean_kept`, `Words.id_iff`, `Words.id_no_panic`, `Words.foreign_violated`.
* **C96** Transforms keep their meaning when they are read and written: partial. Proved for all valid texts of fewer than 2048 functions of SVG: read and written with the same functions and numbers. Violated: longer lists panic, functions in CSS before the end are not read, text that begins with a character that is not ASCII panics. Numbers are exact decimals.
  Theorems: `Moves.list_kept`, `Moves.long_violated`, `Moves.list_sound`, `Moves.css_last`, `Moves.css_first_violated`, `Moves.foreign_violated`.
* **C97** The information on a selection is what all of its elements share: partial. Proved for all selections: the name, the values, the permitted elements and the expected attributes are exactly those shared by all selected elements. Violated: permitted categories and expected groups are always all, and the text is not the common one.
  Theorems: `Shared.nothing_iff`, `Shared.error_iff`, `Shared.found`, `Shared.name_iff`, `Shared.values_iff`, `Shared.members_iff`, `Shared.flags_violated`, `Shared.text_iff`, `Shared.text_one`, `Shared.same_text_violated`, `Shared.other_text_violated`.
* **C98** Lists of points keep their points: partial. Proved for all lists of points: they are read with all numbers in order, and written without a letter. Reading what was written is proved where C21 holds (its conditions on neighbouring numbers). Otherwise the points before the error are kept, and reading ends for every text without a close-path. Violated: path data is accepted as points, a close-path before a number is read for ever, and a second move is merged into the number before it.
  Theorems: `Points.points_read`, `Points.points_sound`, `Points.points_prefix`, `Points.points_accepted`, `Points.points_halt`, `Points.points_halt_violated`, `Points.points_bare`, `Points.written_eq`, `Points.points_written_partial`, `Points.letter_violated`, `Points.moves_violated`.
* **C99** Setting attributes and styles changes the selected elements and nothing else: partial. Proved for all selections and documents: exactly the selected elements that accept the attribute or style are changed, and nothing else. Violated: a name with two colons panics.
  Theorems: `Edit.attr_done`, `Edit.style_done`, `Edit.style_error`, `Edit.important_iff`, `Edit.important_else`, `Edit.attr_panics_violated`.

## What is modelled

| module | code | left out |
|--------|------|----------|
| `Arena` | oxvg_ast/src/arena.rs: allocator, ids, `reorder` | memory and lifetimes |
| `Dom` | oxvg_ast/src/node.rs, element.rs: links and all functions that change them, child iterators, `retain_children` | attributes (in `Attrs`), parsing of documents |
| `Bfs` | element.rs breadth-first iterator | |
| `Names` | oxvg_collections name.rs, atom/prefix/namespace, `parse_attr_id` | the generated tables of names (a parameter) |
| `Attrs` | oxvg_ast attribute storage: get, set, remove, sort | parsing of values (a parameter) |
| `ClassList` | oxvg_ast class_list.rs | |
| `Escape` | oxvg_serialize/xmlwriter: `write_escaped` | |
| `Xml` | oxvg_ast xmlwriter.rs, serialize.rs | the text of names, values and style rules (parameters), io errors, `write_cdata_text` (never called) |
| `LineCol` | error.rs `to_line_and_col` | |
| `Parse`, `Number` | oxvg_parse: cursor, `expect_*`, `skip_*`, identifiers, integers and reals | conversion of a decimal to f64 (std) |
| `ListOf` | list_of.rs and the four separators | |
| `Path` | oxvg_path: parser and writer of path data | ryu (its output format is a hypothesis) |
| `Segment` | oxvg_path paths/segment.rs and convert.rs: commands to segments and back | floats (rationals are used), the centre form of arcs (a parameter), the printed length of numbers (a parameter) |
| `Simplify` | oxvg_path segment/simplify.rs, optimize.rs, optimiser utils/style_info.rs, convert_path_data.rs options | floats, geometry of arcs and the ratio at which joined curves meet (parameters), `arc_curves` (a parameter), uniting |
| `IdGen`, `CleanupIds` | cleanup_ids.rs | percent encoding, the visitor of values (parameters) |
| `PrefixIds` | prefix_ids.rs | CSS selectors below pseudo-classes |
| `Tree` | visitor.rs start/visit over documents as trees | the arena below it (see `Dom`), parsing of style sheets |
| `Removal` | remove_comments, remove_desc, remove_metadata, remove_title, remove_style_element, remove_x_m_l_proc_inst, remove_elements_by_attr, remove_raster_images, remove_editors_n_s_data | regular expressions (parameter) |
| `UnusedNs` | remove_unused_n_s.rs | |
| `MoveAttrs` | move_elems_attrs_to_group.rs, move_group_attrs_to_elems.rs | the parsed values (any type), the test for a style sheet and for references (parameters), values relative to other properties |
| `Jobs` | oxvg_optimiser jobs/mod.rs, configuration, `svgo` import | serde |
| `Actions` | oxvg_actions state.rs, action codec, `oxvg action` argument parser, class action | selectors (parameter), geometry |
| `Build` | parse/roxmltree.rs: links, order, ids, depth limit (the same links in parse/web_sys.rs) | roxmltree itself, contents of nodes |
| `Namespaces` | parse/roxmltree.rs: `NamespaceMap`, names, `xmlns` attributes | `Node::namespaces` of roxmltree is taken to list own declarations, then inherited ones not overridden |
| `Cascade` | style.rs: `ComputedStyles` (`with_all`, `with_inherited`, `with_style`, `get`) | selectors, shorthands, vendor prefixes, conversion of properties to attributes |
| `Transform` | transform.rs: `round`, `matrix_to_transform`, `optimize`, `to_matrix`, conversions from and to CSS; convert_transform.rs: all of `transform` | `f32` (numbers are real), the printed width and digits of numbers, parsing, lightningcss matrices of three dimensions |
| `Apply` | apply_transforms.rs: `apply_matrix_to_path_data` and everything it calls | `f64` rounding; matrices that are not invertible, for arcs |
| `Shapes` | convert_shape_to_path.rs: all; convert_ellipse_to_circle.rs: `element`; geometry.rs: `round` | `f64`, parsing of lengths and of `points`, cascade of geometry properties |
| `Empty` | remove_empty_text.rs, remove_empty_containers.rs, remove_useless_defs.rs: all; element.rs: `is_empty` | computed styles (parameter), reading options |
| `Collapse` | collapse_groups.rs: all; attribute.rs: `get_named_item_mut`, `set_named_item`, `remove_named_item` | equality of values (decidable equality of a type of values), whether a style declares a filter (parameter), stylesheets |
| `Values` | content_type.rs: `round`, `visit_float`, `visit_length_value` and their parts for single values; cleanup_numeric_values.rs, cleanup_list_of_values.rs: all | `f32` (real numbers); `to_px` of lightningcss (factors from the definition of the units); kinds of values without numbers are one kind; what is printed |
| `MergePaths` | merge_paths.rs: `element` | whether paths intersect, computed styles (parameters); text between the children; `f64` (rational numbers) |
| `Stroke` | apply_transforms.rs: `element`, `apply_stroked` | how the winning rule is found (`Cascade`), CSS `d`, animations; `f64` and `f32` (real numbers) |
| `Viewport` | remove_view_box.rs, remove_dimensions.rs: `element`; visitor.rs: `visit`, `visit_children` for jobs that edit attributes | `f32` (rational numbers), attributes with an alias of the SVG namespace as prefix; stylesheets are a parameter |
| `Unknowns` | remove_unknowns_and_defaults.rs: all hooks and helpers; collections/element.rs: all rows, `is_permitted_child`, `is_permitted_attribute`, `expected_attributes`, `expected_attribute_groups`; collections/attribute.rs: names, groups, defaults and inheritance of all rows; style.rs: `with_inherited` | ids under an alias of the SVG prefix; selectors see an element with its ancestors, not its siblings; the regular expression for processing instructions is a parameter; values are lists of words and numbers |
| `Retain` | remove_empty_attrs.rs, remove_deprecated_attrs.rs, remove_non_inheritable_group_attrs.rs: all hooks and helpers; collections/attribute.rs: local names, prefixes and deprecation of all rows; content_type.rs: `is_empty` | ids under an alias of a prefix; parsing of selectors; which parsed values are empty (a value without parts) |
| `Unpainted` | remove_useless_stroke_and_fill.rs: all; visitor.rs: `has_scripts`, `query_has_stylesheet` | how values are parsed (a value that is not parsed is neither zero nor `none`); whether a value begins with `javascript:` (a parameter) |
| `Hidden` | remove_hidden_elems.rs: all; visitor.rs: `visit`, `visit_children` while elements are removed | how values are parsed, the number of commands of a path and which ids an attribute refers to (parameters); computed styles are a parameter, except without style sheets |
| `Merge` | merge_styles.rs: all; node.rs: `style`, `set_style_content`; visitor.rs: `visit`, `visit_children` while style elements are removed | how rules and media queries are parsed and written (opaque); CDATA sections, which the parser never makes |
| `Inline` | inline_styles.rs: all; utils/minify_style.rs: that empty rules go | selector matching and `strip_allowed_pseudos` (a parameter that has to be right), printing of tokens, minification, the place of style elements among siblings |
| `Minify` | minify_styles.rs: all; utils/minify_style.rs: that rules are lost if the minifier fails | minification by lightningcss (a parameter), the search for scripts (a parameter) |
| `SortDefs` | sort_defs_children.rs: all; element.rs: sort_child_elements (with `Dom` for the links); `ElementId` len and order | sorts of more than 20 items (a parameter that keeps what the standard library promises), elements with the same written name in different namespaces |
| `CleanAttrs` | cleanup_attrs.rs: all; `char::is_whitespace`, `str::trim`, `str::split_whitespace`, `join` | which attributes hold text (given per attribute), attributes that share storage |
| `Gjk` | `gjk_intersection.rs`: all; `geometry/point.rs`: `dot`, `cross`, `orth`, `rotate_radian` | rounding, infinities and NaN; logging; `IndexBounds::new`, whose indices are replaced by `convex_hull` |
| `ArcTo` | geometry/arc.rs: `from_arc_to`, `from_arc_by`, `point_at`, `to_arc_to`, `subdivide_t`, `clamp_t`, `reverse`, `is_arc_to_line`; math.rs: `euclid_gcd_lossy`, `radius_factor` | rounding of `f64` (numbers are real); the memoised end point; `from_curve`, `fit`, `to_curve_to`, perimeters, bounding boxes |
| `Canvas` | remove_off_canvas_paths.rs: `prepare`, `element`, `gather` | `f32` and rounding; parsing of the attributes; `get_attribute_mut!` of aliased names; strokes, markers, viewports and references are in the specification of violations only |
| `Xlink` | `remove_xlink.rs` whole, with `retain`, `remove_attribute!`, `set_attribute!` and the walk | parsing of `xlink:show` beyond the exact words; attributes are sorted into those the job tells apart; the new `title` is put as first child without the pointers of nodes |
| `Walk` | `walk.rs` whole, and the use of it by `optimise.rs` and `format.rs` | the crate `ignore` is any scheduler that hands out the files below a path; symbolic links, permissions and errors of the disk; parsing, jobs and serialising are a parameter; messages |
| `Select` | selectors.rs: `Select`, `Selector::matches_with_scope_and_cache`, `matches_naive`, all methods of `SelectElement` used for matching; element.rs: `parent_element`, siblings, `children_iter`, breadth-first iterator, `is_root`; attribute.rs (ast): `get_named_item_local` | the crate `selectors` (parsing, order of the tests, use of the cache) is described from its documentation; `:has`, `:only-child`, `:nth-child(… of …)`, bloom filters; how values are written is a parameter |
| `StyleAttr` | convert_style_to_attrs.rs: `element`; attribute.rs (collections): the table of properties that have an attribute | `minify_style::style` is a parameter; how a value is written as an attribute; attributes with a prefix that is not the usual one (`unreachable!()` for a `style` attribute with an alias) |
| `RemoveAttrs` | remove_attrs.rs: `create_regex`, `parse_pattern`, `element`; regex_memo.rs: `get`, `is_match` | the parser of the crate `regex` is a parameter, of which only what `^` and `$` do to an expression is used (a small parser shows that this can be); values are those that would be written; the table of compiled expressions |
| `Background` | cleanup_enable_background.rs: `prepare`, `visit_declaration_block`, `element`, `State::new` | the parsers of values are parameters; lengths are those that `to_px` gives; breadth first order (see `Bfs`) |
| `Colors` | convert_colors.rs: `prepare`, `element`, `visit_color`; content_type.rs: `visit_color`, `visit_color_not_list`; element.rs: `closest` | the visitor of the crate `lightningcss` for style attributes is taken to visit every colour; what colours are |
| `Scripts` | remove_scripts.rs: `prepare`, `element`, `exit_element`; visitor.rs: `has_scripts`; attribute/group.rs: `event` and the table of events; node.rs: `retain_children` and element.rs: `flatten` by `dissolve_links` | that scripts are taken away before events changes nothing; after a list of children is broken, lists are those that can be seen; `dissolve_links` is for a tree whose links are in order |
| `Precheck` | precheck.rs: all; error.rs: `PrecheckError` | the texts of errors; that an error ends the whole run is in `Jobs` |
| `RootAttrs` | add_attributes_to_s_v_g_element.rs: all; add_classes_to_s_v_g_element.rs: all; element.rs (ast): `find_xmlns`, `parse_attr_id`, `is_root` | the parsing of values by type: `Attr::new` is taken to keep the text |
| `Gradients` | convert_one_stop_gradients.rs: all | `get_color` (the computed style of a stop) is a parameter, and its errors; an `svg` element within a gradient; in release builds counting below zero wraps |
| `Fit` | geometry/ellipses.rs `fit_curve`, `angle_at_point`, `ellipse_tolerance`; geometry/arc.rs `fit_curve`; segment/simplify.rs `arc_curves` | floats; the intersection of the crate `geo` (a parameter with a contract); the centre for curves that end where they start (a parameter); which of the fitted arcs are taken (any choice) |
| `Curves` | geometry/curve.rs `point_at_from`, `new_quad`, `subdivide_t`, `subdivide_at`, `reverse`, `clamp_t`, `clamp_at`, `t_at`, `control_point_distance_squared` (and those of `CurveWithStart`); algorithm/coords_iter.rs for curves | floats; assertions of debug builds; `is_convex`, which uses the crate `geo` |
| `Arcs` | geometry/arc.rs `t_at`, `subdivide_at`, `clamp_at`, `len`, `tangent_t`, `to_curve_to`; geometry/ellipses.rs `point_at_angle`, `ellipse_tolerance`, `angle_at_point`; algorithm/coords_iter.rs for arcs | floats; the memoised end; assertions of debug builds; `is_connected` |
| `Overlay` | algorithm/bool_ops.rs `boolean_op`; algorithm/bool_ops/i_overlay_integration.rs but for the tree; oxvg_actions manipulate/path.rs `boolean_op` | floats; the crates `i_overlay`, `rstar` and `geo`; `unary_union`; reading and writing of the path data, and the computed rule for filling (taken as given); effects on history, selection and document |
| `Lint` | rules/mod.rs but for the rules on single elements; no_unused_xmlns.rs, no_unused_ids.rs, no_default_attributes.rs; parse/roxmltree.rs prefixes | order of reports; ranges other than the start of the element; what refers to an id inside a value (parameter) |
| `Report` | error.rs `display_context`; utils.rs `naive_range` | colours, headers and messages |
| `Check` | oxvg_lint parse.rs; rules/mod.rs severities and dispatch; commands/lint.rs; commands/lint/lsp.rs `lint`, `did_open`, `did_change`; config.rs `lint`; optimise.rs `handle_config` (printing) | the rules (parameter); order of reports; concurrency of the handlers; input/output errors |
| `Reuse` | reuse_paths.rs; element.rs `set_local_name` (loss of children) | nodes that are not elements; order of attributes; equality of path data and paints (parameter); whether a style sheet selects an id (parameter) |
| `Jsx` | oxvg_jsx swc.rs, utils/attr_to_jsx_str.rs, swc/preset.rs, swc/get_variables.rs, commands/jsx.rs (names, index) | printing of attribute values and CSS; Unicode white space and letters outside of ASCII; vendor prefixes of style properties; swc itself (printer, parser of expressions: parameter); custom templates |
| `Clock` | oxvg_collections attribute/animation_timing.rs (ClockValue, Metric, Dur), attribute/animation.rs (BeginEnd) | rounding of `f32` and printing with six digits (numbers are exact decimals of up to six digits a run; the text for negative zero is a parameter); wall clock values and access keys are read and written as they are but nothing is proved of them; `repeat(…)` likewise |
| `BySelector` | oxvg_optimiser jobs/remove_attributes_by_selector.rs; oxvg_ast Select::next as an iterator that is consumed while the document is changed | the parser of selectors (a parameter); documents with more than one element at the top |
| `Sink` | oxvg_ast parse/markup5ever.rs: `NamespaceMap`, `find_xml_uri`, `find_new_xmlns`, `add_xmlns`, `create_element`, `append` (optional feature `markup5ever`) | xml5ever itself (it hands over qualified names in document order, without declarations); values, texts, comments and instructions; the HTML parser; fragments that are appended before siblings |
| `Keywords` | oxvg_collections attribute.rs: `enum_attr!` and all 69 uses of it; attribute/inheritable.rs; attribute/presentation.rs: `PaintOrder`, `FontVariant`, `FontVariantLigatures`, `FontVariantNumeric`, `FontVariantEastAsian`; attribute/uncategorised.rs: `PreserveAspectRatio`; oxvg_parse lib.rs: `parse_string` | other types made of keywords and values (`Orient`, `In`, `Target`, `BaselineShift`, `Clip`, …); the keywords of CSS properties, which lightningcss parses |
| `Rules` | oxvg_lint rules/no_deprecated.rs, no_invalid_attributes.rs, no_unknown_attributes.rs, no_unknown_elements.rs, no_xlink.rs; oxvg_ast parse/roxmltree.rs: `parse_attr`, `parse_element` as far as attributes and ranges go; oxvg_collections element.rs: `ElementId::new`, `expected_attributes`, `expected_attribute_groups`, `info`, `is_permitted_child` | the tables of elements and attributes themselves, the texts for help (the one for `xlink:show="replace"` proposes `target="_new"`), suggestions of similar names |
| `Boxes` | attribute/uncategorised.rs: `ViewBox`; attribute/presentation.rs: `Clip`, `EnableBackground`; attribute/core_attrs.rs: `NumberOptionalNumber`; each with `parse` and `write_value` | rounding to `f32` and the six digits of the printer, exponents that do not fit into 64 bits |
| `Choice` | attribute/presentation.rs: `FontSizeAdjust`; attribute/animation_timing.rs: `RepeatCount`, `MinMax`, `RepeatDur`; attribute/uncategorised.rs: `Rotate`; attribute/core_attrs.rs: `Frequency`; attribute/animation.rs: `ControlPoint`; each with `parse` and `write_value` | rounding to `f32` and the six digits of the printer, so a count that rounds to zero; exponents that do not fit into 64 bits |
| `Words` | attribute/uncategorised.rs: `Target`, `ColorProfileName`, `TrueFalse`, `TrueFalseUndefined`; attribute/filter_effect.rs: `In`; attribute/core_attrs.rs: `Boolean`, `NonWhitespace`; each with `parse` and `write_value` | `to_lowercase` on letters that are not ASCII (none of them becomes a letter of `srgb`) |
| `Moves` | attribute/transform.rs: `SVGTransform::parse`, `SVGTransform::write_value`, `skip_comma_and_whitespace`, `SVGTransformList::parse`, `SVGTransformList::write_value` | rounding of numbers to `f32` and printing with six digits; the parser and printer of lightningcss for a transform in CSS (parameters; the theorems need only that it does not read the empty text) |
| `Shared` | oxvg_actions/src/info.rs: `Info::new`; node.rs: `text_content` of an element whose children are seen as texts | the tables of element and attribute names (parameters), printing of attribute values (parameter that may fail), the conversion to napi |
| `Points` | oxvg_collections/src/attribute/path.rs: `Points::parse`, `Points::write_value`, its `Writer`; oxvg_path format.rs and command.rs as pieces | the text of the remaining content (only whether there is any), rounding of literals to `f64`, the search for the shortest decimal |
| `Edit` | oxvg_actions/src/actions/manipulate.rs: `attr`, `style`; oxvg_ast attribute.rs: `set_named_item`; element.rs: the assertion of `parse_attr_id` | the tables of names and namespaces (parameter that does not change during the action, so setting `xmlns` is left out), reading of CSS (parameter), the entry in the history (see C39) |

Not modelled: lightningcss, roxmltree, xml5ever's tokenizer, the selector engine, wasm/napi glue, the code generation
of swc, curve flattening, logging, and every job not named above.

## Where the code departs from the properties

Each is shown by a theorem on the model; file names are in /repo.

* C01: a cloned allocator numbers new nodes with ids that are in use.
* C03: `before` leaves inconsistent links; `insert_before` of a node before itself makes a loop; `append_child`
  does not detach from the former parent; `sort_child_elements` leaves the first child's `previous_sibling`;
  `set_local_name` drops the children; `empty` and `set_text_content` leave the parent of former children.
* C04: `retain_children` loses what follows a dropped child that is not among the first.
* C07, C08: attributes found by variant of id; equal canonical spellings keep their order.
* C13: references in one attribute are conflated; without minification referenced ids are removed; numeric ids
  are removed though referenced; an id that is the encoded form of another is removed; among repeated ids the
  first in breadth-first order is kept; an id with `%` that is referred to without encoding is not found.
* C14, C37: `x` and `prefix__x` collide; urls are prefixed although only classes are to be; an element with
  an empty style is skipped; the prefix is the first component of the path.
* C11: with the default treatment of white space `a ` and ` b` in adjacent text nodes become `ab`; the space between
  two `tspan`s and no-break spaces at the ends are dropped; `xml:space` is not undone at the end of its element (in
  both directions); with indentation the space around an inner element of `text` is dropped; line feeds in values
  and carriage returns are not escaped; comments with `--` and styles with `<` give unreadable output; processing
  instructions are written only at the very beginning, elsewhere they are an error.
* C15, C17: `omit` ignored without `extends`; a parameter consumed twice; preset as object rejected.
* C18, C34, C36: `read`, `expect_char`, `expect_ident` panic on text that is not ASCII; `skip_char` trims both
  ends; `expect_str` moves past the end; `Ö` is refused.
* C19: `1e-7.5`, `1..5`, `1e`, `1 2.` refused. C35: 32-bit integers wrap around.
* C20: the path parser runs for ever on `M0 0z5`; it panics on a character of several bytes in place of a flag.
* C21: `1.5e-10` is written as `1.5e-1`; `1e-7 .5` as `1e-7.5`, which is refused; numbers of implicit commands
  run together; an implicit close-path is written as a space.
* C22: a trailing comma eats characters; white space after `z` adds a command.
* C23: a smooth command reflects the control point of a curve of the other kind; a subpath is closed if it ends at the
  start of the next one; `M0 0z` is not closed; arcs with tiny radii and arcs without extent become lines.
* C24: `t` is written after a cubic curve, `s` after a quadratic one and after a move; an empty line or a line to the
  start is written as `Z`; relative commands drift without bound when rounded.
* C25: a line of any length in steps below the tolerance vanishes; a corner followed by small steps is cut off, of any
  size; a curve that ends where it begins vanishes, of any size; curves beyond their ends are cut; commands without
  extent are removed although a media query may give lines round ends; closing is taken for safe with round ends
  and corners, though it draws a line. (Not proved: arcs that are nearly full circles are taken for lines by
  `Arc::is_straight`; curves to arcs drops nodes also where markers are drawn on them; `M1 1z`, a dot with round ends, is
  removed.)
* C26: a description that contains only a description needs two runs. Doctypes never reach the tree.
* C26: `gifts.svg` and `http://cdn.jpgs.org/a.svg` are removed as raster images (`raster_violated`); images with `href` without
  `xlink:` are not looked at.
* C28: an attribute moved to a group loses against the group's `style`; `inherit` on all children replaces the group's
  value; a value hidden by a relative declaration comes to light; transforms hidden in the children or the group by
  `style` come to light; `transform="inherit"` is overwritten; unreadable transforms replace the group's; copies
  made by `use` lose what was moved to the group. (Not proved: `stroke-width` in `em` moved across a change of
  `font-size`; `animateTransform` on a child replaces a moved transform; a filter in the group's `style` is not seen.)
* C29: a stored `Insert` makes the whole history unreadable.
* C31: a wrong sole item is parsed as the empty list; `1 , 2` is refused but `1, 2 , 3` and `1,,2` are not.
* C39: a selection made after a deselection is not saved; `oxvg action` drops history and selection if nothing
  is selected in the same run.
* C40: selecting more selects an element twice, so that a class toggled is toggled back.
* C41: a style sheet is attached to its element twice (parse_style, then parse_xml_node) and becomes its own sibling.
  Removing it has no effect on its element, and `Allocator::reorder`, run at the end of every action, never ends
  (a debug build fails an assertion).
* C42: an element that declares its own prefix (`<svg:svg xmlns:svg=…>`) is written without it; a declaration repeated on
  a later element is dropped; a second prefix for a URI goes on being used outside of its scope; what is restored after
  an element pairs the prefix of one declaration with the URI of another.
* C43: in `.a, .b {…}` a selector that does not match is not popped, so `.b` is tested as `.a.b`, also in the next rule
  of one `@media`; specificity is recorded but never compared; a rule outside `@media` hides a more specific one inside
  and is called static; `@supports` is ignored; the first of two declarations in `style` is taken; a child takes over
  the attribute of its parent before its rules; one `:hover` in a style sheet makes every element's styles an error.
* C44: `translate(1 1)` is taken for the identity when a matrix is shortened, so `matrix(2 0 0 2 1 1)` becomes `scale(2)`;
  a matrix of integers is rounded to integers after its decomposition, so `matrix(1 1 -1 1 0 0)` becomes `rotate(45)`;
  a precision of 20 or more rounds to integers; `convertToShorts` only adds a rounding; CSS `scaleX(2)` becomes
  `scale(2 0)` when styles become attributes, which flattens the picture. Outside of the model: in `f32` the centre of a
  merged rotation by a tiny angle is divided by zero.
* C45: applying a transform to an arc decides whether to reverse its direction by comparing the signs of `a` and `d` instead
  of the sign of the determinant. `matrix(0 1 1 0 0 0)` reflects but keeps the direction; `matrix(-1 2 -1 1 0 0)` does not
  reflect but reverses it. `arc_image_iff`: the arc is right exactly if both agree. An arc whose first radius is 0 (drawn as a
  straight line) gets NaN from every invertible matrix, even a translation, and so does a circle of radius 1/2000 under
  `scale(2 1)`: the threshold 1e-6 is compared with the difference of the squares of the axes, whatever the size.
* C46: a rectangle of width 0 and a circle of negative radius draw nothing, but their paths do (`flat_violated`,
  `negative_violated`). An absent radius of an ellipse is read as 0, though SVG 2 makes it equal to the other one
  (`auto_violated`).
* C46: the radius and the ends of the arcs of a circle are rounded separately. If the radius becomes longer than half the
  distance of the ends, the large arcs bulge: by 0.3 where each number moved by at most 0.0005 (`rounding_violated`).
* C46: the check whether a stylesheet names `ellipse` looks at the flag for `circle` (`ellipse_names_violated`); the children of a
  shape are dropped (`children_violated`); paths of circles start at the top and run counterclockwise, which moves dashes
  (`start_violated`).
* C46: an ellipse with radii of 50% each becomes a circle of 50%, though the percentages refer to different lengths
  (`percent_violated`).
* C47: the space in `hello<tspan> </tspan>world` is removed with the empty `tspan` (`words_violated`); a `text` with nothing
  but an empty `tspan` is removed only by a second run (`nested_violated`).
* C47: `glyph` and `missing-glyph` have their outline in an attribute and count as empty containers (`glyph_violated`).
* C47: scripts and fonts within `defs` go away (`script_violated`), and elements taken out of a group in `defs` lose what they inherit
  from the group (`inherit_violated`).
* C48: all presentation attributes count as inherited when a group is collapsed: `opacity` of the group is lost if the child has one
  (`opacity_violated`), and a child with `display="inline"` of a group with `display="none"` is shown (`display_violated`).
* C48: if an attribute is animated the loop returns, but attributes before it have been copied and stay in the group: a transform applies
  twice (`animated_violated`). The documentation says the job never panics; `<g fill="red"><animate fill="freeze"/></g>` borrows the
  attributes of the animation while they are being changed (`panic_violated`).
* C48: attributes that mean nothing on a group get a meaning (`meaning_violated`, `fresh_violated`), a style goes before an attribute of
  the child (`style_violated`), stylesheets (`selector_violated`) and references (`use_violated`) are not looked at, and a second run may
  find more (`again_violated`).
* C49: `ContentType::round` does not look into inherited kinds when it follows lists, so the branches for `stroke-dasharray` and `enable-background` are never reached from an attribute; the one for control points is not reached from `keySplines`, which is a list of them. The snapshots of the tests look rounded since printing keeps six digits (`skipped_violated`).
* C49: with lists followed, single values are rounded as well, against the comment on `follow_list`: `cleanupListOfValues` with precision 0 makes `width="0.4"` into 0 (`lists_only_violated`), and two different precisions add up (`twice_violated`).
* C49: a view box with a size below half a unit of the last decimal becomes empty, which disables rendering (`small_violated`). The option `default_px` is never read (`default_px_violated`).
* C50: `merge_paths` does not look at the parent, so the choices of a `switch` are merged and all shown (`switch_violated`). It compares attributes, not styles, so rules that depend on the place among the children are mixed up (`computed_violated`). `pathLength` then counts for all merged paths (`length_violated`). Only the outlines are tested for intersections, so wide strokes with an opacity lose a layer where they overlap (`wide_violated`). References in rules that apply only sometimes, and those into other documents, do not stop it (`dynamic_violated`, `remote_violated`).
* C51: `apply_transforms` scales the stroke by writing attributes. A rule for `stroke-width` still wins (`rule_violated`), dashes that are inherited are not scaled (`dashes_violated`), `inherit` as value of `stroke` or `stroke-width` is not resolved (`inherited_violated`, `inherited_width_violated`), dashes are scaled although `pathLength` fixes them (`length_violated`), `vector-effect` is read from the attribute only (`effect_violated`). Gradients and markers that are inherited or come from rules are not noticed (`server_violated`), nor are references to other documents (`remote_violated`) and `transform-origin` (`origin_violated`). A rule with the same transform, or one under a condition, stays in place, so that the path is transformed twice (`twice_violated`, `dynamic_violated`). `apply_transforms_stroked: true` keeps paths with a stroke from being changed (`option_violated`). `transform_precision` is used as a factor (`precision_violated`). A rule whose transform no attribute can hold makes the job panic (`panic_violated`).
* C52: `remove_view_box` also looks at symbols and patterns. A symbol used with another size is no longer scaled (`symbol_violated`; exactly then, `symbol_iff`). A pattern of the size 1 by 1, which by default means the bounding box of what is painted, loses its scale (`pattern_violated`), one whose tile does not begin in the origin is moved (`offset_violated`), one that refers to another pattern takes the view box of that one (`template_violated`). A size in a style overrides the attributes that were compared (`style_violated`). `remove_dimensions` strips nested `svg` elements, which then fill the outer one although their view box matches (`nested_violated`), and removes the size beside a `viewBox` that does not parse (`ignored_violated`).
* C53: `remove_unknowns_and_defaults` says that it never changes the document visually and never fails. An element used through `use` has other ancestors too, whose properties were hidden by what is removed (`use_violated`); a relative value that is the same as the inherited one is another size (`relative_violated`); the shorthand `marker` is not seen (`shorthand_violated`); an attribute of an ancestor is taken to win over a rule (`rule_violated`); selectors on attributes are not looked at (`selector_violated`); `kerning` is not marked as inherited (`kerning_violated`); a default is wrong for `divisor` (`divisor_violated`), `transform-origin` (`origin_violated`) and, as percentages are fractions, for sixteen attributes with percentages, so that `width="10000%"` is removed and `width="100%"` is not (`percent_violated`, `defaults_violated`). `mask-type` and `white-space` are in no table and are removed always (`property_violated`), and so is a `tspan` in a link (`link_violated`, documented). A selector that cannot be read, such as `:hover`, is an error (`errors_violated`).
* C54: `remove_empty_attrs` removes `lang=""`, which says that the language is not known (`empty_language_violated`), `xmlns=""` (`empty_namespace_violated`), `to=""` and `values=""` of animations (`empty_set_violated`, `empty_values_violated`) and attributes that selectors ask for (`empty_selector_violated`). `remove_non_inheritable_group_attrs` removes `transform-origin` from a group with a `transform` (`group_origin_violated`) and values that a child asks for with `inherit` (`group_inherit_violated`). `remove_deprecated_attrs` removes `xml:lang` beside a different `lang`, although it is the one that counts (`deprecated_language_violated`; a snapshot of the repository expects this); it does not look into `:not` (`deprecated_not_violated`), looks for names in lower case (`deprecated_case_violated`) and compares the prefix of a selector with that of the attribute (`deprecated_prefix_violated`).
* C55: `remove_useless_stroke_and_fill` says that it never changes the document visually. It removes attributes although declarations in `style` stay, so that a stroke or fill appears (`style_violated`, `fill_style_violated`); it looks for `marker-end` only (`marker_violated`), not if the width is zero (`marker_width_violated`), and not through the shorthand (`marker_shorthand_violated`), though markers are scaled by the width of the stroke; content of a shape loses what it inherits (`nested_violated`); an animation of the width starts from a stroke that was not drawn (`animation_violated`). `remove_none` removes shapes with a stroke and no fill, or a fill and no stroke (`none_violated`).
* C56: `remove_hidden_elems` says that it never changes the document visually and never fails. A `use` whose link is empty or begins with a character of several bytes is a panic (`panic_violated`, `bytes_violated`). `display: none` counts even under a condition (`media_violated`); `visibility: visible` is looked for in attributes only (`visible_violated`). Gradients, clipping paths and others are removed within something hidden, where they still count (`gradient_violated`, `defs_violated`); only `use` protects what is hidden, not `textPath` (`text_path_violated`), not a `use` in a clipping path (`clip_violated`), and not against a transparent group around it (`used_violated`); a pattern of no width is removed though it is a template (`template_violated`); a `use` of a path with one command is removed with the marker it gives (`marker_violated`); a style sheet goes with its group (`sheet_violated`); `switch` takes another child (`switch_violated`). Of nested empty `defs` one stays or none, by the random order of a hash set (`order_violated`).
* C57: `merge_styles` says that it never changes the document visually. An `@import` of a later style element is put behind other rules (`import_violated`), that of one with a media query into a media rule (`media_import_violated`), where neither counts. A style element the parser does not read is removed with the rules that CSS recovers (`syntax_violated`), a media query it does not read is dropped (`media_violated`). Style elements of type `TEXT/CSS` and in `foreignObject`s are not merged and overtaken by those behind them (`type_violated`, `foreign_violated`). A style element directly within another loses its media query (`nested_media_violated`). A style element in an empty one takes all rules with it (`nested_violated`).
* C58: `inline_styles` says that it never changes the document visually. A rule that is inlined wins over rules of greater specificity (`specificity_violated`) and media rules (`media_rule_violated`, `two_sheets_violated`) that stay. Classes and attributes are removed although rules that stay ask for them (`class_violated`, `class_attr_violated`, `attr_violated`, `nested_violated`). The `media` attribute of the style element is ignored (`media_attr_violated`), and at-rules that `use_mqs` names are dropped (`named_media_violated`); the default `screen` never equals the text `media screen` it is compared with. A `style` attribute that the parser does not read is replaced (`style_attr_violated`). Attributes go by name, also where they are no presentation attributes (`width_violated`). `remove_matched_selectors` is never read.
* C59: `minify_styles` says that it never changes the document visually and never fails. A `style` attribute that the parser does not read is a panic (`panic_violated`). Names, ids and classes of elements that are not of SVG do not count, so rules for the content of a `foreignObject` go (`foreign_violated`). A rule whose selectors match nothing goes with what is nested in it, such as `:not(&)` (`nested_violated`). An empty `style` attribute goes though `[style]` asks for it (`style_selector_violated`).
* C60: `sort_defs_children` never clears the previous sibling of the child that comes first. If that one is removed later, it stays and all other definitions are lost (`definitions_lost_violated`): `RemoveDesc`, which runs next by default, turns `<defs><g/><desc/></defs>` into `<defs><desc/></defs>` (`desc_violated`). The comparison says of two comments or texts that each is less than the other, so they are reversed with every run (`again_violated`), and with more than 20 child nodes the standard library may panic (`panic_violated`).
* C61: `cleanup_attrs` says that it should never affect the appearance. It empties `unicode=" "` and `unicode="&#160;"`, so that texts in an SVG font lose their spaces (`glyph_violated`), makes `result` names of filters the same (`result_violated`), changes what `[data-x="a  b"]` matches (`selector_violated`), and joins lines of event handlers behind a `//` comment (`handler_violated`).
* C62: `Path::intersects` is not symmetric: for lines that touch, the answer depends on which is asked (`symmetric_violated`). A line along an axis does not intersect itself, since its box has no height (`same_violated`), so strokes that lie on each other count as apart.
* C63: `to_arc_to` does not end for (nearly) half an ellipse both of whose radii round to zero with the given precision: the common divisor is 0, the radii become infinite, and halving them never gets below the limit. With the default precision this is `A.0004.0004 0 0 1 .0008 0`; with a precision of 1 any half circle with a radius below 0.05.
* C63: `to_arc_to` compares the radii with the tolerance, but not the points. An arc of a circle with radius 100 that is a little less than half of it is written as half a circle; its middle moves by about 0.2 with a tolerance of 0.001, as the distance of the centre from the chord grows with the square root of the change of the radius.
* C64: the job promises never to change the picture, but removes a path outside of the view box whose stroke reaches into it (`stroke_violated`), one that is seen since the viewport is wider or higher than the view box (`viewport_violated`), and one that is only defined there and painted elsewhere by `use` (`use_violated`; likewise in nested `svg`, `symbol`, `pattern`, `marker`, `mask` and `clipPath` elements). A path of two commands that stays gets a `z`, so that the caps of the line are lost (`close_violated`).
* C65: without `includeLegacy` remove_xlink removes every unknown attribute and every declaration of a foreign namespace, in documents without XLink too; it removes the declaration of XLink even if attributes of XLink stay (`xlink:show="replace"`, `xlink:href` on legacy elements or beside `href`, `xlink:title` beside `title`), so the output is not well-formed; the new `title` is in no namespace in documents with a prefix for SVG; it panics for an aliased unreadable `show` beside `target`.
* C66: `--output` without a value, documented to write to the input, prints to standard output; several input paths write to the same output and overwrite each other; an output directory inside of the input may be walked itself, with results that depend on the schedule; the file is truncated before serialising, so an error in serialising loses an input that is written in place; `oxvg optimise .` reads standard input if that is no terminal; files given by name with another extension (also `.SVG`) are passed over silently.
* C67: `select` finds no element or attribute whose name has upper case, such as `linearGradient`, `clipPath` or `[viewBox]`, as elements say that they are HTML and names are then asked for in lower case (`camel_violated`, `attr_camel_violated`). An element is known by the address of a temporary wrapper, so places are remembered for the wrong elements: `:nth-child(2)` gives all elements or none (`nth_violated`, `nth_cache_violated`), and `:scope` matches nothing (`scope_violated`). `[*|href]` does not find `xlink:href` (`prefix_violated`); `:empty` does not hold for an element with a comment (`empty_violated`); `xlink:href` makes no `:link` (`link_violated`); values are compared as they would be written (`value_violated`) and without case for attributes that HTML knows (`case_violated`); classes are separated by any Unicode whitespace (`class_violated`).
* C68: converting `style` into attributes changes values whenever a style sheet gives the property another value (`sheet_violated`, `important_violated` if important declarations are not kept); `font` and `marker` are written as attributes that do not exist (`shorthand_violated`, confirmed by a snapshot of the repository); elements of HTML and gradients lose what becomes an attribute (`html_violated`, `gradient_violated`); a shorthand with `var()` that stays beats what followed it (`retained_violated`); rules for `[style]` no longer apply (`selector_violated`).
* C69: patterns of removeAttrs: a part that is left out, as in `:fill`, is said to match all, and matches nothing (`omission_violated`); `fill|stroke` also removes `fill-opacity` and everything that ends in `stroke`, as the anchors bind stronger than `|` (`alternatives_violated`, `finds_many`); `preserveCurrentColor` preserves only `fill` and `stroke`, not `color` or `stop-color` (`preserve_violated`).
* C70: cleanupEnableBackground is said to keep backgrounds in documents with filters, unless they fit. From `style` attributes it removes every `enable-background: new …`, on every element, with or without filters and of every size (`style_violated`); where the region begins is not looked at (`offset_violated`).
* C71: convertColors with `currentColor` is to convert all colours. It leaves those of style sheets (`sheet_violated`) and those to fall back to in paints of attributes, as in `url(#a) red` (`fallback_violated`). Masks are to stay as they are, but an element in a mask that uses `currentColor` gets another colour if an element around the mask set it (`mask_violated`, `mask_exact`).
* C72: removeScripts is to remove all scripts and never to change what is shown. A link to a script with a text (white space is enough) between two elements loses all behind the text and all following siblings of the link (`lost_violated`, from `retain_children` and `flatten`). Texts in such links go (`text_violated`). Scripts of HTML in SVG stay (`html_violated`), and so do attributes of other events such as `onblur`, `onpointerdown`, `ontouchstart` (`event_violated`, `events_missing`), and addresses such as `JavaScript:` or with a tab inside (`url_violated`). The search for scripts, which keeps jobs from changing documents with scripts, does not see `xlink:href` (`search_violated`).
* C73: precheck with `failFast: false` is to write a log; the option is never read, and the errors are the same (`log_violated`). Every `xlink:href` outside of four elements is called external, also `#a` (`internal_violated`), and external references in `href` are accepted (`external_violated`), as are `discard`, links to scripts and scripts of HTML (`missed_violated`).
* C74: addAttributesToSVGElement takes every prefix that is not declared on the element, and `xml` and `xmlns`, for the namespace of SVG (`prefix_violated`): adding `xml:space` or a declaration that is there gives two attributes of one name, which is not well formed (`twice_violated`); a name with two colons is a panic (`panic_violated`). addClassesToSVGElement adds nothing to an element without classes (`missing_violated`), replaces all classes with `className` (`replaced_violated`), writes the classes in random order (`order_violated`) and panics for `s:class` (`aliased_violated`).
* C75: convertOneStopGradients removes a gradient of one stop even if the colour is not found, as for a stop without `stop-color` (`color_violated`), drops `stop-opacity`, leaves the paints in style sheets (`sheet_violated`), removes gradients whose template is missing so that fallbacks show (`template_violated`) and templates of gradients that stay (`geometry_violated`), follows only one template (`chain_violated`), removes the declaration of `xlink` though other attributes have the prefix (`declaration_violated`), leaves empty `defs` depending on the order of a map (`order_violated`) and counts below zero with nested `svg` elements (an example).
* C76: `Arc::fit_curve` looks at a curve in five points and always takes the shorter way around: a curve that goes around more than half of a circle becomes the opposite arc (`turn_violated`, e.g. `M-36-27C-76 69 76 69 36-27`, whose arc is also shorter when written), a loop through the five points becomes an arc (`loop_violated`), and for half of a circle the direction does not depend on the curve (`half_violated`).
* C77: the coordinates along a curve that ends where it starts are the two ends only (`coords_closed_violated`): boolean operations see such a petal as a point. `ExactSizeIterator::len` and `coords_count` of curves are always one less than the number of coordinates (`coords_len_violated`). `Curve::t_at` does not find the point at an eighth of a line shorter than a millionth (`tAt_short_violated`), as the step is given up for small derivatives, whatever the tolerance.
* C78: the step for the coordinates along an arc is chosen by `point_at_angle(t_step)` instead of `point_at(t_step)`: an arc that starts at the angle of one radian becomes a straight line (`coords_start_violated`). `len` and `coords_count` are one less than the number of coordinates (`coords_len_violated`). The rule of Simpson in `Arc::len` leaves out the last point, so the length of a reversed arc of an ellipse differs (`length_reverse_violated`). `to_curve_to` gives nothing for exactly the arcs up to a quarter of a turn (`toCurve_small_violated`). The tolerance of `t_at` grows with the radius (`tAt_tolerance_violated`).
* C79: making a ring a path again unwraps the place of each vertex on its curve, but vertices are on the polygon of the curve: a panic where the polygon is more than 1/1000 away, as for a parabola 100 wide or more that is cut in the middle of a side (`rebuild_panic_violated`). Successive edges of the same curve are made one part, so the loop of a curve that crosses itself is lost (`rebuild_loop_violated`). The actions combine path data without the transforms of the elements (`action_transform_violated`), and set `fill-rule` to even-odd even if there is only one path and nothing was combined (`action_single_iff`).
* C80: `xmlns="http://www.w3.org/2000/svg"` is never reported, because the attribute counts as its own use (`svg_default_violated`). A prefix declared on the element whose own name has it is reported as unused though it is needed (`own_prefix_violated`); of two prefixes for one namespace the first is reported whichever is used (`second_prefix_violated`). Ids that only selectors of style sheets use are reported as not referenced (`selector_violated`). A default value is reported as safe to omit although it overrides an inherited value (`default_iff`).
* C81: the range of an element name panics if nothing but white space and `<` follows (`naive_panics_iff`), takes the slash of `<a/>` along (`naive_slash_violated`), and the marks are counted in bytes, so they are off after text that is not ASCII and for ranges over several lines (`marks_iff`, `marks_violated`).
* C82: `oxvg lint check` always exits with success; `--level` and `--config` are never read (`check_exit_violated`, `check_config_violated`). A section on linting that names some rules turns all others off, though it is documented to override the defaults (`config_unnamed`). The configuration printed without such a section makes errors of the four rules that warn (`printed_violated`). The editor goes on showing problems that were repaired (`stale_violated`, `session_right_iff`).
* C83: the references that replace duplicate paths use the prefix `xlink`, which is declared on the `defs` element only, though they are outside of it: the result cannot be read as XML unless the document declared the prefix (`run_unbound_violated`; visible in the snapshots of the tests). The check whether an id is referenced compares `a` with `#a`, so the id always moves to the definition, which lacks the transform and all other attributes of the path (`run_id_violated`, `referred_lost_violated`). With nested `svg` elements the lists are treated again for the outer one and everything may vanish (`nested_lost_violated`). A path with `style` and an attribute for the same property changes its paint (`same_iff`).
* C85: style sheets, texts with `{`, `}`, `<`, `>` or `&`, elements with a prefix, important declarations in `style`, processing instructions inside of elements, and unknown attributes such as `data-name` do not survive the conversion to JSX (`stylesheet_violated`, `text_violated`, `prefixed_violated`, `important_violated`, `instruction_violated`, `unknown_violated`); blanks at the ends of texts are lost (`blank_violated`: `a <tspan>b</tspan>` reads `ab`); an unknown attribute `className` collides with `class` (`class_violated`).
* C84: with TypeScript and default options the module uses the type `{Name}Props`, which is declared only if there is a property for the title or the description (`props_type_violated`); with a `ref` it uses `Ref`, which is never imported (`ref_type_violated`); `react.svg`, `memo.svg` and the like declare a name twice (`react_violated`, `transform_distinct_iff`); for preact `forwardRef` and `memo` are imported from `preact`, which has neither (`preact_violated`); an import of one's own with a namespace and a source for it mixes `* as` with names, a syntax error (`mixed_import_violated`); the index takes the name of the component from modules that export `Memo` or `ForwardRef` (`index_named_violated`), exports names twice for files such as `a-b.svg` and `a_b.svg` (`separator_violated`) and on a second run (`index_again_violated`); `1abc.svg` gives a component in small letters (`small_name_violated`) and `24.svg` one without a name (`componentName_nil_iff`).
* C86: with `titleProp` the `aria-labelledby` of the document becomes undefined where no `titleId` is given (`label_lost_violated`); a title nested in another element takes the place of the one of the `svg` (`nested_title_violated`); the result of replacing values depends on the order of a hash map if a new value is replaced itself (`replace_order_violated`); for React Native an element all of whose children are dropped is written without a closing tag (`native_unclosed_violated`).
* C87: durations whose last field is below one are written without the digit that the grammar requires in front of the point: `0.5s` becomes `.5`, `00:00.5` becomes `00:0.5` (`duration_strict_iff`, `half_second_violated`).
* C88: a negative offset with a colon is reversed or mangled: `a.begin-00:30` becomes `a.begin+00:30` and `a.begin-01:30` becomes `a.begin0-1:30` (`colon_violated`, `reversed_violated`); a reference to an element with `-` in its id is read neither escaped nor plain, so that the attribute stays unparsed and the jobs that rename or remove ids do not see it (`escaped_violated`, `dash_violated`); `a.end-0s` becomes the event `end0` of `a` where negative zero is printed as `0`.
* C89: elements are selected while attributes are removed, so that a selector that asks for a listed attribute of an ancestor or sibling sees what was already removed: `[fill] > [fill]` with `fill` leaves the fill of every other element of a chain (`chain_violated`, `siblings_violated`), and `:not([fill]) > [fill]`, which matches one element, takes the fill of all of them (`cascade_violated`).
* C90: the xml5ever sink declares namespaces again from the names in use, all on the root. A document with `<div xmlns="http://www.w3.org/1999/xhtml">` gets a second `xmlns` on the root and is no longer well-formed (`foreign_violated`); a root with a prefix gets `xmlns:xmlns` (`prefixed_violated`); a prefix with two meanings keeps one; and `<svg xmlns="…"><text xml:space="preserve" xlink:title="…"/></svg>` panics, since the skipped `xml` is counted in the index for `Vec::insert` (`panic_violated`).
* C91: `aria-relevant="additions text"` is never parsed although it has a variant (`aria_relevant_violated`): names have no spaces. `font-variant` takes one word for each component, and a word for ligatures only as the first word (`font_group_violated`, `font_order_violated`): `common-ligatures discretionary-ligatures` is valid, but stays unparsed and is reported by the linter. The printer of a component puts no space between its words (`joined_violated`), which is hidden by this. White space of Unicode counts around keywords, so `fill-rule="evenodd&#xA0;"`, which is invalid, becomes valid (`nbsp_violated`).
* C92: deprecated elements are never reported if the document has a prefix for SVG (`prefixed_legacy_violated`; `ElementId::info` does not look below `Aliased`), nor are invalid values of attributes with another prefix than the usual one, as in `x:show="bogus"` (`aliased_invalid_violated`). The range for the rest of a path is counted back from the end of the value by the length of the text after references are replaced, so it is wrong for `d="M0&#33;"` and underflows if an entity stands for more text than there is in front of it (`rest_place_violated`, with `rest_place` for values without references). Two attributes with the same namespace and local name (`width` and `svg:width`) share the range of the last one (`shared_range_violated`).
* C93: `skip_char` skips all commas, so `viewBox="0,,,,0 10 10"`, which is in error and is ignored by viewers, is read and written as `0 0 10 10`, which is not ignored (`commas_violated`); the same for `clip="rect(,1,2,3,4)"` (`clip_commas_violated`). Edges of `clip` with units or `auto` are not read, so such values stay as they are (`clip_units`).
* C94: the unit of frequencies is compared with `KHz`, but SVG and CSS write `kHz` (and units are in any case of letters): no frequency in `kHz` is read (`khz_violated`), so such values stay as text; exactly `Hz` and `KHz` are read (`frequency_iff`).
* C94: as for `dur` (C87), a `min`, `max` or `repeatDur` whose last number is between zero and one is written without the digits before the point, which the grammar of clock values does not allow (`limit_strict_iff`).
* C95: `expect_ident` panics on text that does not begin with an ASCII character, so a document with `target`, `in`, `autofocus`, `aria-*` values or the name of a colour profile in Greek, Cyrillic, … crashes the program, though such names are valid (`foreign_violated`; exactly these texts: `target_panic`, `in_panic`, `profile_panic`, `flag_panic`, `boolean_panic`).
* C95: `In::parse` ends with `expect_done`, so an input with white space behind it is not read, though one with white space in front of it is (`in_space_violated`); a name with `Ö` is not read either, since the range of name characters ends before it (`in_iff`).
* C96: `SVGTransformList::parse` panics on every valid `transform` of 2048 functions or more (`long_violated`); one of 2047 is read.
* C96: lightningcss is given all of the remaining text as a single transform, so in a list a function in CSS is only read as the last one (`css_last`); a list such as `translateX(1px) scale(2)` is not read but left as text (`css_first_violated`).
* C96: a `transform` that begins with a character that is neither ASCII nor white space panics (`foreign_violated`).
* C97: `Info::new` starts the permitted categories and the expected attribute groups at all and takes unions, so that for every selection that is not empty they are all there are, whatever the elements permit (`flags_violated`); the documentation says "permitted by all selected elements".
* C97: the text common to the selected elements is not given if there are two or more and it is not empty (`same_text_violated`), and an empty element followed by one with text gives the text of the second (`other_text_violated`); exactly, the text is that of the last element if all before it are empty (`text_iff`).
* C98: `points` accepts path data: `M1 2 3 4`, which SVG does not draw, is read like `1 2 3 4` and written so (`letter_violated`), other commands are accepted and written too, and the letter of a second move is dropped without a space, so that `1 2M3 4` is written as `1 23 4` (`moves_violated`); `points="0 0z5"` is read for ever (`points_halt_violated`).
* C99: the action `attr` panics for a name with two colons as soon as an element is selected (`attr_panics_violated`); the documentation names a missing root as the only error.
* Gaps found by wrong programs and left open: no theorem of C75 says that the declaration of the prefix `xlink` stays while it is in use (removing it always still proves everything); that a transform is not moved to a group with a filter, clip path or mask (C28) is only checked by examples.

## Axioms per theorem

As printed by `#print axioms` for every theorem named in MANIFEST.json.

* no axiom: `Check.check_config_violated`, `Check.printed_some`, `Check.printed_violated`, `Dom.empty_violated`, `Jobs.none_disables`, `Jobs.run_no_root`, `Precheck.run_same`, `RootAttrs.aliased_violated`, `RootAttrs.classes_added`, `RootAttrs.classes_neither`, `RootAttrs.missing_violated`, `RootAttrs.replaced_violated`.
* `propext`: `Background.run_else`, `Cascade.inherited_violated`, `Cascade.inline_violated`, `Cascade.list_violated`, `Cascade.sibling_violated`, `Cascade.specificity_violated`, `Cascade.static_violated`, `Cascade.supports_violated`, `Cascade.unreadable_violated`, `Check.check_exit_partial`, `Check.check_exit_violated`, `Check.check_outcomes`, `CleanAttrs.off`, `Colors.run_same`, `Edit.attr_panics_violated`, `Jobs.Svgo.path_config_violated`, `Jobs.extend_spec`, `Jobs.important_spec`, `Jobs.resolve_violated`, `Jobs.safe_eq_default_with_precheck`, `Jsx.separator_violated`, `Lint.default_iff`, `Namespaces.attribute_violated`, `Parse.expectStr_violated`, `Parse.read_violated`, `Parse.skipChar_violated`, `Parse.tryParse_spec`, `Precheck.external_violated`, `Precheck.internal_violated`, `Precheck.run_off`, `RemoveAttrs.finds_many`, `RemoveAttrs.finds_one`, `RootAttrs.order_violated`, `Scripts.events_missing`, `Simplify.removeEmpty_spec`, `SortDefs.off`, `StyleAttr.everywhere`, `StyleAttr.outline_kept`, `StyleAttr.table_presents`, `StyleAttr.unstyled_same`.
* `propext`, `Quot.sound`: `Actions.fromState_sound`, `Actions.names_unique`, `Actions.new_iff`, `Actions.opened`, `Arena.alloc_spec`, `Arena.clone_violated`, `Arena.new_spec`, `Background.counts_partial`, `Background.run_twice`, `Cascade.plain_static`, `Check.config_unnamed`, `Check.mem_reports`, `Check.session_shows`, `Check.stale_violated`, `CleanAttrs.again`, `CleanAttrs.joined`, `CleanAttrs.list_kept`, `CleanAttrs.words_kept`, `CleanupIds.forced`, `CleanupIds.left_alone`, `CleanupIds.names_iff`, `CleanupIds.preserved_iff`, `Colors.fallback_violated`, `Colors.mask_exact`, `Colors.mask_violated`, `Colors.run_exact`, `Colors.said_current`, `Colors.sheet_violated`, `Colors.uses_outer`, `Curves.clampT_end`, `Curves.reverse_along`, `Curves.subdivide_along`, `Curves.tAt_mono`, `Edit.attr_done`, `Escape.escape_appends`, `Escape.escape_no_delimiter`, `Escape.escape_round_trip`, `Gradients.declaration_violated`, `Gradients.order_violated`, `Gradients.run_off`, `Gradients.sheet_violated`, `Jobs.Svgo.default_order`, `Jobs.extend_assoc`, `Jobs.extend_idem`, `Jobs.extend_none_left`, `Jobs.extend_none_right`, `Jobs.omit_unknown`, `Jobs.run_spec`, `Jsx.componentName_spec`, `Jsx.conditional_absent`, `Jsx.conditional_given`, `Jsx.index_again_violated`, `Jsx.index_distinct_iff`, `Jsx.nested_title_violated`, `Jsx.replace_order_violated`, `Lint.reportIds_iff`, `Lint.reportIds_nodup`, `Lint.selector_violated`, `ListOf.quoted_item`, `Namespaces.default_violated`, `Namespaces.names_partial`, `Namespaces.own_violated`, `Number.i64_spec`, `Parse.expectChar_spec`, `Parse.expectDone_spec`, `Parse.expectIdentMatching_spec`, `Parse.expectIdent_spec`, `Parse.expectStr_spec`, `Path.parse_mono`, `Points.points_accepted`, `Precheck.log_violated`, `PrefixIds.collide_iff`, `PrefixIds.prefixId_spec`, `PrefixIds.prefixReference_spec`, `Report.naive_slash_violated`, `Report.naive_word`, `Reuse.nested_lost_violated`, `Reuse.referred_lost_violated`, `Reuse.same_iff`, `Reuse.tidy_others`, `Shared.error_iff`, `Shared.found`, `Shared.members_iff`, `Shared.name_iff`, `Shared.nothing_iff`, `Shared.other_text_violated`, `Shared.same_text_violated`, `Shared.text_iff`, `Shared.text_one`, `Shared.values_iff`, `Simplify.job_passes`, `SortDefs.kept`, `SortDefs.len_written`, `StyleAttr.attrs_iff`, `StyleAttr.distinct_kept`, `StyleAttr.gradient_violated`, `StyleAttr.html_violated`, `StyleAttr.important_violated`, `StyleAttr.retained_violated`, `StyleAttr.sheet_violated`, `StyleAttr.shorthand_violated`, `StyleAttr.style_iff`.
* `propext`, `Classical.choice`, `Quot.sound`: `Actions.class_partial`, `Actions.class_spec`, `Actions.class_untouched`, `Actions.class_violated`, `Actions.commandLine_spec`, `Actions.commandLine_violated`, `Actions.command_not_number`, `Actions.history_iff`, `Actions.history_kept`, `Actions.history_violated`, `Actions.insert_violated`, `Actions.no_selection`, `Actions.parseCommands_f32_iff`, `Actions.parseCommands_iff`, `Actions.readBack_iff`, `Actions.reselect_violated`, `Actions.saved_valid`, `Actions.selectedNodes_spec`, `Actions.selection_kept_iff`, `Actions.selection_kept_partial`, `Actions.selection_survives`, `Actions.selects`, `Apply.apply_draws_partial`, `Apply.apply_partial`, `Apply.apply_some`, `Apply.arc_exists`, `Apply.arc_image_iff`, `Apply.arc_unique`, `Apply.direction_violated`, `Apply.draws_exists`, `Apply.draws_unique`, `Apply.flat_violated`, `Apply.shear_violated`, `Apply.small_violated`, `Apply.swap_violated`, `ArcTo.clamp_points`, `ArcTo.draws_unique`, `ArcTo.fromArcBy_draws`, `ArcTo.fromArcTo_draws`, `ArcTo.fromArcTo_none_iff`, `ArcTo.fromArcTo_unique`, `ArcTo.gcd_spec`, `ArcTo.reverse_points`, `ArcTo.subdivide_points`, `ArcTo.toArcTo_draws`, `ArcTo.toArcTo_ends_violated`, `ArcTo.toArcTo_fromArcTo`, `ArcTo.toArcTo_half`, `ArcTo.toArcTo_none_iff`, `ArcTo.toArcTo_radii`, `ArcTo.toArcTo_tolerance_violated`, `Arcs.clampAt_along`, `Arcs.coords_len_violated`, `Arcs.coords_near`, `Arcs.coords_points`, `Arcs.coords_start_violated`, `Arcs.length_between`, `Arcs.length_circle`, `Arcs.length_reverse_violated`, `Arcs.subdivideAt_along`, `Arcs.tAt_complete`, `Arcs.tAt_sound`, `Arcs.tAt_tolerance_violated`, `Arcs.tAt_turn`, `Arcs.tangent_dir`, `Arcs.toCurve_points`, `Arcs.toCurve_small_violated`, `Arena.history_spec`, `Arena.reorder_spec`, `Attrs.cmp_eq`, `Attrs.cmp_total_preorder`, `Attrs.getLocal_spec`, `Attrs.getMut_spec`, `Attrs.getNs_spec`, `Attrs.get_partial`, `Attrs.get_violated`, `Attrs.history_distinct`, `Attrs.nsClass_eq`, `Attrs.part_eq`, `Attrs.recognised_coherent`, `Attrs.remove_partial`, `Attrs.remove_spec`, `Attrs.retain_spec`, `Attrs.set_at`, `Attrs.set_get`, `Attrs.set_length`, `Attrs.set_others`, `Attrs.set_spec`, `Attrs.sort_canonical_partial`, `Attrs.sort_canonical_violated`, `Attrs.sort_idempotent`, `Attrs.sort_ordered`, `Attrs.sort_perm`, `Background.element_fates`, `Background.fate_unique`, `Background.fates_unique`, `Background.offset_violated`, `Background.run_exact`, `Background.style_violated`, `Bfs.bfs_spec`, `Bfs.find_spec`, `Boxes.clip_commas_violated`, `Boxes.clip_kept`, `Boxes.clip_units`, `Boxes.commas_violated`, `Boxes.enable_kept`, `Boxes.pair_kept`, `Boxes.pair_sound`, `Boxes.viewBox_kept`, `Boxes.viewBox_sound`, `Build.parse_children`, `Build.parse_limit`, `Build.parse_spec_partial`, `Build.reorder_ends_iff`, `Build.style_links_violated`, `BySelector.cascade_violated`, `BySelector.chain_violated`, `BySelector.items_partial`, `BySelector.job_fails_iff`, `BySelector.others_kept`, `BySelector.remove_partial`, `BySelector.siblings_violated`, `Canvas.beyond_go`, `Canvas.close_violated`, `Canvas.fate_total`, `Canvas.go_apart`, `Canvas.run_shown_partial`, `Canvas.run_still`, `Canvas.run_total`, `Canvas.run_unknown`, `Canvas.seen_stays`, `Canvas.stay_seen`, `Canvas.stroke_violated`, `Canvas.use_violated`, `Canvas.viewport_violated`, `Cascade.computed_partial`, `Check.lint_counts`, `Check.lint_ok_iff`, `Check.session_right_iff`, `Choice.adjust_kept`, `Choice.adjust_sound`, `Choice.clip_sound`, `Choice.control_kept`, `Choice.control_sound`, `Choice.count_iff`, `Choice.count_kept`, `Choice.count_sound`, `Choice.enable_sound`, `Choice.frequency_iff`, `Choice.frequency_kept_partial`, `Choice.frequency_sound`, `Choice.khz_violated`, `Choice.limit_kept`, `Choice.limit_strict_iff`, `Choice.repeat_kept`, `Choice.rotate_kept`, `Choice.rotate_sound`, `ClassList.add_raw_violated`, `ClassList.add_spec`, `ClassList.contains_spec`, `ClassList.history_spec`, `ClassList.length_spec`, `ClassList.remove_spec`, `ClassList.replace_spec`, `ClassList.retain_spec`, `ClassList.toggle_spec`, `ClassList.toggle_twice`, `CleanAttrs.glyph_violated`, `CleanAttrs.handler_violated`, `CleanAttrs.result_violated`, `CleanAttrs.selector_violated`, `CleanAttrs.white_iff`, `CleanupIds.digits_violated`, `CleanupIds.encoded_violated`, `CleanupIds.ends`, `CleanupIds.first_violated`, `CleanupIds.follow_partial`, `CleanupIds.mixed_violated`, `CleanupIds.not_minified_violated`, `CleanupIds.raw_violated`, `Clock.begin_kept_iff`, `Clock.begin_kept_partial`, `Clock.colon_violated`, `Clock.dash_violated`, `Clock.duration_kept`, `Clock.duration_strict_iff`, `Clock.escaped_violated`, `Clock.half_second_violated`, `Clock.offset_kept_iff`, `Clock.reversed_violated`, `Clock.wait_kept_iff`, `Collapse.again_violated`, `Collapse.animated_kept`, `Collapse.animated_violated`, `Collapse.collapse_clean`, `Collapse.collapse_does`, `Collapse.collapse_partial`, `Collapse.display_violated`, `Collapse.fresh_violated`, `Collapse.meaning_violated`, `Collapse.opacity_violated`, `Collapse.panic_violated`, `Collapse.selector_violated`, `Collapse.style_violated`, `Collapse.switch_kept`, `Collapse.use_violated`, `Curves.chordDist2_least`, `Curves.clampAt_along`, `Curves.clampT_along`, `Curves.coords_closed_violated`, `Curves.coords_len_violated`, `Curves.coords_near`, `Curves.coords_points`, `Curves.newQuad_curve`, `Curves.subdivideAt_along`, `Curves.tAt_seed`, `Curves.tAt_short_violated`, `Curves.tAt_sound`, `Curves.tAt_straight`, `Dom.after_spec`, `Dom.appendChild_iff`, `Dom.appendChild_spec_partial`, `Dom.append_spec`, `Dom.before_violated`, `Dom.both_ends_spec`, `Dom.edit_loop_spec`, `Dom.empty_iff`, `Dom.flatten_spec`, `Dom.history_spec`, `Dom.insertAfter_spec`, `Dom.insertBefore_spec`, `Dom.insertSelf_violated`, `Dom.insert_spec_partial`, `Dom.item_spec`, `Dom.remove_loop_spec`, `Dom.remove_spec`, `Dom.replaceChild_spec_partial`, `Dom.replaceChildren_iff`, `Dom.replaceWith_spec`, `Dom.retain_iff`, `Dom.retain_spec_partial`, `Dom.retain_violated`, `Dom.setLocalName_violated`, `Dom.setTextContent_iff`, `Dom.sortChildren_iff`, `Dom.sortChildren_violated`, `Edit.important_else`, `Edit.important_iff`, `Edit.style_done`, `Edit.style_error`, `Empty.containers_again`, `Empty.containers_solid_partial`, `Empty.containers_spec`, `Empty.defs_clean`, `Empty.defs_shown`, `Empty.defs_targets_partial`, `Empty.glyph_violated`, `Empty.inherit_violated`, `Empty.nested_violated`, `Empty.script_violated`, `Empty.text_letters_partial`, `Empty.text_spec`, `Empty.words_violated`, `Escape.escape_ampersand`, `Escape.escape_no_markup`, `Fit.arcCurves_alike`, `Fit.fit_circle`, `Fit.fit_ends`, `Fit.fit_iff`, `Fit.fit_middle_partial`, `Fit.fit_near_partial`, `Fit.fit_same`, `Fit.fit_shorter`, `Fit.half_violated`, `Fit.loop_violated`, `Fit.turn_violated`, `Gjk.ArcR.covered`, `Gjk.crossing_found`, `Gjk.intersects_empty`, `Gjk.intersects_no`, `Gjk.intersects_no_real`, `Gjk.intersects_total`, `Gjk.intersects_yes`, `Gjk.outlines_violated`, `Gjk.overlap_found`, `Gjk.same_violated`, `Gjk.symmetric_violated`, `Gradients.chain_violated`, `Gradients.color_violated`, `Gradients.geometry_violated`, `Gradients.run_lost`, `Gradients.run_none_left`, `Gradients.run_seen_partial`, `Gradients.run_single`, `Gradients.template_violated`, `Hidden.bytes_violated`, `Hidden.careful_partial`, `Hidden.clip_violated`, `Hidden.defs_violated`, `Hidden.flat_gone`, `Hidden.gradient_violated`, `Hidden.hidden_gone`, `Hidden.marker_violated`, `Hidden.media_violated`, `Hidden.nothing_new`, `Hidden.off_kept`, `Hidden.order_partial`, `Hidden.order_violated`, `Hidden.panic_violated`, `Hidden.picture_kept_partial`, `Hidden.sheet_violated`, `Hidden.shown_kept_partial`, `Hidden.succeeds_partial`, `Hidden.switch_violated`, `Hidden.targets_kept_partial`, `Hidden.template_violated`, `Hidden.text_path_violated`, `Hidden.transparent_gone`, `Hidden.unreferenced_gone`, `Hidden.used_violated`, `Hidden.visible_violated`, `IdGen.ids_avoid_reserved`, `IdGen.ids_disjoint`, `IdGen.ids_distinct`, `IdGen.ids_length_monotone`, `IdGen.ids_none_skipped`, `IdGen.ids_terminate`, `IdGen.ids_valid`, `Inline.all_inlined_partial`, `Inline.attr_violated`, `Inline.attrs_kept`, `Inline.class_attr_violated`, `Inline.class_violated`, `Inline.elements_kept`, `Inline.media_attr_violated`, `Inline.media_rule_violated`, `Inline.named_media_violated`, `Inline.nested_violated`, `Inline.off`, `Inline.referenced_kept`, `Inline.selectors_kept`, `Inline.specificity_violated`, `Inline.style_attr_violated`, `Inline.two_sheets_violated`, `Inline.values_kept_partial`, `Inline.width_violated`, `Jobs.Svgo.import_bad_params`, `Jobs.Svgo.import_default`, `Jobs.Svgo.import_preset_object_violated`, `Jobs.Svgo.import_spec`, `Jobs.Svgo.import_unknown`, `Jobs.Svgo.path_config_partial`, `Jobs.Svgo.snake_svgoName`, `Jobs.omit_spec`, `Jobs.resolve_partial`, `Jsx.attrName_spells`, `Jsx.blank_violated`, `Jsx.class_violated`, `Jsx.componentName_nil_iff`, `Jsx.docJsx_shows_iff`, `Jsx.dropped_iff`, `Jsx.icon_size`, `Jsx.important_violated`, `Jsx.index_exported_iff`, `Jsx.index_named_violated`, `Jsx.instruction_violated`, `Jsx.known_inj`, `Jsx.known_kept`, `Jsx.label_lost_violated`, `Jsx.mixed_import_violated`, `Jsx.nativeName_iff`, `Jsx.native_unclosed_violated`, `Jsx.preact_violated`, `Jsx.prefixed_violated`, `Jsx.preset_readable`, `Jsx.preset_sound`, `Jsx.props_type_violated`, `Jsx.react_violated`, `Jsx.ref_type_violated`, `Jsx.replace_order`, `Jsx.replace_spec`, `Jsx.small_name_violated`, `Jsx.stylesheet_violated`, `Jsx.svgAttrs_value`, `Jsx.text_violated`, `Jsx.toJsx_shows_iff`, `Jsx.toNative_components`, `Jsx.transform_distinct_iff`, `Jsx.transform_imports`, `Jsx.transform_resolved`, `Jsx.transform_runs`, `Jsx.transform_typed_iff`, `Jsx.unknown_violated`, `Keywords.aria_relevant_violated`, `Keywords.aspect_accepts`, `Keywords.aspect_kept`, `Keywords.aspect_read`, `Keywords.enum_kept_iff`, `Keywords.enum_read`, `Keywords.font_group_violated`, `Keywords.font_kept`, `Keywords.font_order_violated`, `Keywords.font_words`, `Keywords.inherit_read`, `Keywords.joined_violated`, `Keywords.nbsp_violated`, `Keywords.paint_accepts`, `Keywords.paint_kept`, `Keywords.paint_read`, `Keywords.tables_kept_iff`, `LineCol.position_correct`, `LineCol.position_monotone`, `LineCol.position_round_trip`, `Lint.default_attr_violated`, `Lint.own_prefix_violated`, `Lint.reportNs_iff`, `Lint.reportNs_nodup`, `Lint.second_prefix_violated`, `Lint.svg_default_violated`, `Lint.usual_iff`, `ListOf.comma_space_violated`, `ListOf.integers`, `ListOf.integers32`, `ListOf.list_iff`, `ListOf.rounds_enough`, `ListOf.write_parse`, `ListOf.wrong_item_violated`, `Merge.again`, `Merge.fixed`, `Merge.foreign_violated`, `Merge.import_violated`, `Merge.media_import_violated`, `Merge.media_violated`, `Merge.nested_media_violated`, `Merge.nested_violated`, `Merge.off`, `Merge.others_kept`, `Merge.rules_kept_partial`, `Merge.single`, `Merge.syntax_violated`, `Merge.two_merged`, `Merge.type_violated`, `MergePaths.computed_violated`, `MergePaths.dynamic_violated`, `MergePaths.fails_only`, `MergePaths.ids_kept`, `MergePaths.length_violated`, `MergePaths.merge_drawn`, `MergePaths.merge_picture_partial`, `MergePaths.merge_picture_test`, `MergePaths.merge_runs`, `MergePaths.others_kept`, `MergePaths.remote_violated`, `MergePaths.stop_needed`, `MergePaths.switch_violated`, `MergePaths.test_no`, `MergePaths.test_total`, `MergePaths.wide_violated`, `Minify.elements_kept`, `Minify.fails_iff`, `Minify.foreign_violated`, `Minify.nested_violated`, `Minify.panic_violated`, `Minify.scripts_kept`, `Minify.selectors_iff`, `Minify.style_selector_violated`, `Minify.values_kept_partial`, `MoveAttrs.child_inherit_violated`, `MoveAttrs.child_style_violated`, `MoveAttrs.exitGroup_partial`, `MoveAttrs.group_hidden_violated`, `MoveAttrs.group_style_violated`, `MoveAttrs.hidden_transform_violated`, `MoveAttrs.inherit_violated`, `MoveAttrs.relative_violated`, `MoveAttrs.reuse_violated`, `MoveAttrs.toElems_fuel`, `MoveAttrs.toElems_partial`, `MoveAttrs.toElems_reuse_partial`, `MoveAttrs.toGroup_partial`, `MoveAttrs.unreadable_transform_violated`, `Moves.css_first_violated`, `Moves.css_last`, `Moves.foreign_violated`, `Moves.list_kept`, `Moves.list_sound`, `Moves.long_violated`, `Names.attrNew_name`, `Names.id_eq_expanded`, `Names.id_eq_refl`, `Names.id_eq_symm`, `Names.id_eq_trans`, `Names.new_none`, `Names.new_uri_value`, `Names.parseAttrId_eq`, `Names.parseAttrId_expanded`, `Names.parseAttrId_spelling`, `Names.prefix_eq_iff`, `Namespaces.again_violated`, `Namespaces.restore_violated`, `Namespaces.synonym_violated`, `Number.f64_clash`, `Number.f64_iff`, `Number.f64_none`, `Number.f64_parsed`, `Number.f64_sound`, `Number.f64_violated`, `Number.i32_partial`, `Number.i32_violated`, `Number.rustFloat_iff`, `Overlay.action_area`, `Overlay.action_kept`, `Overlay.action_single_iff`, `Overlay.action_transform`, `Overlay.action_transform_violated`, `Overlay.booleanOp_covers`, `Overlay.combine_area`, `Overlay.emit_arc`, `Overlay.find_match`, `Overlay.find_only`, `Overlay.flatten_points`, `Overlay.rebuild_covers`, `Overlay.rebuild_loop_violated`, `Overlay.rebuild_panic_violated`, `Overlay.rebuild_panics`, `Overlay.rebuild_same`, `Parse.ascii_safe_partial`, `Parse.expectIdent_panic_iff`, `Parse.nameChar_iff`, `Parse.nameStart_iff`, `Parse.skipChar_iff`, `Parse.step_iff`, `Parse.whitespace_iff`, `Path.comma_violated`, `Path.exponent_violated`, `Path.flag_panics`, `Path.format_partial`, `Path.fraction_after_exponent_violated`, `Path.halts_iff`, `Path.halts_no_close`, `Path.halts_violated`, `Path.implicit_close_violated`, `Path.implicit_silent_violated`, `Path.implicit_violated`, `Path.parse_sound`, `Path.parse_svg`, `Path.short_shape`, `Path.short_value`, `Path.short_value_violated`, `Path.table_iff`, `Path.trailing_violated`, `Points.letter_violated`, `Points.moves_violated`, `Points.points_bare`, `Points.points_halt`, `Points.points_halt_violated`, `Points.points_prefix`, `Points.points_read`, `Points.points_sound`, `Points.points_written_partial`, `Points.written_eq`, `Precheck.accepted_iff`, `Precheck.error_first`, `Precheck.missed_violated`, `PrefixIds.classes_follow`, `PrefixIds.classes_only_violated`, `PrefixIds.distinct_violated`, `PrefixIds.empty_style_violated`, `PrefixIds.follow_partial`, `PrefixIds.generate_spec`, `PrefixIds.generate_violated`, `PrefixIds.job_idempotent`, `PrefixIds.off_unchanged`, `PrefixIds.remote_untouched`, `PrefixIds.whole_document_violated`, `Removal.byAttr_spec`, `Removal.comments_error_iff`, `Removal.comments_idem`, `Removal.comments_spec`, `Removal.desc_idem_partial`, `Removal.desc_spec`, `Removal.desc_violated`, `Removal.editors_sound`, `Removal.editors_spec`, `Removal.is_iff`, `Removal.metadata_spec`, `Removal.named_spec`, `Removal.off_spec`, `Removal.procInst_spec`, `Removal.rasterImage_iff`, `Removal.raster_iff`, `Removal.raster_off`, `Removal.raster_spec`, `Removal.raster_violated`, `Removal.styleElement_spec`, `Removal.title_spec`, `RemoveAttrs.alternatives_violated`, `RemoveAttrs.documented_partial`, `RemoveAttrs.error_iff`, `RemoveAttrs.omission_violated`, `RemoveAttrs.parts_unique`, `RemoveAttrs.preserve_violated`, `RemoveAttrs.removed_iff`, `RemoveAttrs.run_error`, `RemoveAttrs.run_exact`, `Report.context_shows`, `Report.display_element`, `Report.display_panics_iff`, `Report.marks_iff`, `Report.marks_violated`, `Report.naive_panics_iff`, `Retain.deprecated_case_violated`, `Retain.deprecated_language_partial`, `Retain.deprecated_language_violated`, `Retain.deprecated_not_violated`, `Retain.deprecated_prefix_violated`, `Retain.deprecated_removed`, `Retain.deprecated_selectors_partial`, `Retain.deprecated_styles_partial`, `Retain.empty_conditions`, `Retain.empty_language_violated`, `Retain.empty_meaning_partial`, `Retain.empty_namespace_violated`, `Retain.empty_removed`, `Retain.empty_selector_violated`, `Retain.empty_set_violated`, `Retain.empty_styles`, `Retain.empty_values_violated`, `Retain.group_inherit_violated`, `Retain.group_origin_violated`, `Retain.group_removed`, `Retain.group_styles_partial`, `Reuse.run_draws_partial`, `Reuse.run_id_violated`, `Reuse.run_keeps_ids`, `Reuse.run_unbound_violated`, `Reuse.run_uses`, `RootAttrs.addAll_new`, `RootAttrs.addAll_plain_partial`, `RootAttrs.panic_violated`, `RootAttrs.prefix_violated`, `RootAttrs.run_changed`, `RootAttrs.twice_violated`, `Rules.aliased_invalid_violated`, `Rules.deprecated_iff`, `Rules.invalid_iff`, `Rules.prefixed_legacy_violated`, `Rules.rest_place`, `Rules.rest_place_violated`, `Rules.root_unreported`, `Rules.shared_range_violated`, `Rules.unknown_attrs`, `Rules.unknown_elem_iff`, `Rules.xlink_iff`, `Scripts.dissolve_links`, `Scripts.event_violated`, `Scripts.html_violated`, `Scripts.lost_violated`, `Scripts.run_clean`, `Scripts.run_kept_partial`, `Scripts.run_off`, `Scripts.run_safe`, `Scripts.run_twice`, `Scripts.search_after`, `Scripts.search_violated`, `Scripts.text_violated`, `Scripts.url_spellings`, `Scripts.url_violated`, `Segment.closed_by_next_move_violated`, `Segment.cubic_after_quad_violated`, `Segment.drift_violated`, `Segment.empty_arc_violated`, `Segment.empty_line_violated`, `Segment.fromSvg_none_iff`, `Segment.fromSvg_partial`, `Segment.fromSvg_spec`, `Segment.line_to_start_violated`, `Segment.lone_close_violated`, `Segment.quad_after_cubic_violated`, `Segment.smooth_across_move_violated`, `Segment.smooth_after_cubic_violated`, `Segment.smooth_after_quad_violated`, `Segment.tiny_radius_violated`, `Segment.toSvg_letters`, `Segment.toSvg_partial`, `Segment.toSvg_total`, `Select.attr_camel_violated`, `Select.attr_iff`, `Select.camel_violated`, `Select.case_violated`, `Select.class_violated`, `Select.empty_iff`, `Select.empty_violated`, `Select.link_iff`, `Select.link_violated`, `Select.naive_partial`, `Select.name_iff`, `Select.nth_cache_violated`, `Select.nth_violated`, `Select.prefix_violated`, `Select.scope_violated`, `Select.select_nodup`, `Select.select_order`, `Select.select_partial`, `Select.value_violated`, `Shapes.arcs_kept`, `Shapes.auto_violated`, `Shapes.children_violated`, `Shapes.ellipse_circle_partial`, `Shapes.ellipse_kept_iff`, `Shapes.ellipse_names_violated`, `Shapes.flat_violated`, `Shapes.line_kept_iff`, `Shapes.names_partial`, `Shapes.negative_violated`, `Shapes.percent_violated`, `Shapes.poly_removed_iff`, `Shapes.rect_kept_iff`, `Shapes.removed_spec`, `Shapes.round_partial`, `Shapes.rounding_violated`, `Shapes.start_violated`, `Shapes.straight_partial`, `Shared.flags_violated`, `Simplify.closeLine_iff`, `Simplify.closeSegments_fill`, `Simplify.close_iff`, `Simplify.close_stroke_violated`, `Simplify.corner_violated`, `Simplify.dynamic_cap_violated`, `Simplify.empty_iff`, `Simplify.joinNodes_ends`, `Simplify.joinNodes_grid`, `Simplify.joinNodes_partial`, `Simplify.join_iff`, `Simplify.loop_violated`, `Simplify.noop_partial`, `Simplify.optimize_grid`, `Simplify.overshoot_violated`, `Simplify.removeCloseLine_fill`, `Simplify.removeCloseLine_stroke`, `Simplify.removeNoop_partial`, `Simplify.straightCurves_ends`, `Simplify.straightCurves_partial`, `Simplify.unite_iff`, `Simplify.vanish_violated`, `Sink.foreign_violated`, `Sink.namespaces_kept_iff`, `Sink.panic_violated`, `Sink.parse_kept`, `Sink.prefixed_violated`, `SortDefs.again_partial`, `SortDefs.again_violated`, `SortDefs.arranged_partial`, `SortDefs.definitions_lost_violated`, `SortDefs.desc_violated`, `SortDefs.panic_violated`, `SortDefs.predictable`, `SortDefs.unique`, `Stroke.applied`, `Stroke.apply_picture_partial`, `Stroke.dashes_violated`, `Stroke.dynamic_violated`, `Stroke.effect_violated`, `Stroke.fails_only`, `Stroke.inherited_violated`, `Stroke.inherited_width_violated`, `Stroke.left_alone`, `Stroke.length_violated`, `Stroke.option_violated`, `Stroke.origin_violated`, `Stroke.others_kept`, `Stroke.panic_violated`, `Stroke.precision_violated`, `Stroke.remote_violated`, `Stroke.rule_violated`, `Stroke.server_violated`, `Stroke.twice_violated`, `StyleAttr.selector_violated`, `StyleAttr.untouched_kept`, `StyleAttr.values_kept_partial`, `Transform.css_round_trip`, `Transform.decimals_violated`, `Transform.fromCss_partial`, `Transform.integer_violated`, `Transform.matrix_shorter`, `Transform.run_partial`, `Transform.scaleX_violated`, `Transform.shift_violated`, `Transform.shorts_violated`, `Transform.toCss_move`, `Transform.toMatrix_spec`, `Unknowns.attributes_known`, `Unknowns.conforming_partial`, `Unknowns.defaults_partial`, `Unknowns.defaults_violated`, `Unknowns.divisor_violated`, `Unknowns.errors_violated`, `Unknowns.kerning_violated`, `Unknowns.link_violated`, `Unknowns.off_same`, `Unknowns.origin_violated`, `Unknowns.outline_kept`, `Unknowns.percent_violated`, `Unknowns.property_violated`, `Unknowns.relative_violated`, `Unknowns.removed_iff`, `Unknowns.rule_violated`, `Unknowns.safe_kept`, `Unknowns.selector_violated`, `Unknowns.shorthand_violated`, `Unknowns.styles_partial`, `Unknowns.succeeds_partial`, `Unknowns.use_violated`, `Unpainted.animation_violated`, `Unpainted.fill_style_violated`, `Unpainted.marker_shorthand_violated`, `Unpainted.marker_violated`, `Unpainted.marker_width_violated`, `Unpainted.nested_violated`, `Unpainted.none_partial`, `Unpainted.none_violated`, `Unpainted.others_kept`, `Unpainted.picture_partial`, `Unpainted.skips`, `Unpainted.style_violated`, `Unpainted.succeeds`, `Unpainted.useless_gone`, `UnusedNs.bound_spec`, `UnusedNs.exact_spec`, `UnusedNs.off_spec`, `UnusedNs.unused_idem`, `Values.default_px_violated`, `Values.either_order`, `Values.fails_iff`, `Values.list_tidy`, `Values.lists_only_violated`, `Values.numbers_near`, `Values.order_kept`, `Values.presentation_tidy`, `Values.second_run`, `Values.single_tidy`, `Values.skipped_violated`, `Values.small_violated`, `Values.twice_violated`, `Viewport.dimensions_outline`, `Viewport.dimensions_partial`, `Viewport.dimensions_scaled`, `Viewport.ignored_violated`, `Viewport.nested_violated`, `Viewport.off`, `Viewport.offset_violated`, `Viewport.opposite`, `Viewport.pattern_violated`, `Viewport.style_violated`, `Viewport.symbol_iff`, `Viewport.symbol_violated`, `Viewport.template_violated`, `Viewport.view_box_outline`, `Viewport.view_box_partial`, `Walk.dot_violated`, `Walk.extension_violated`, `Walk.inplace_violated`, `Walk.several_violated`, `Walk.torn_violated`, `Walk.walk_else`, `Walk.walk_fails`, `Walk.walk_goes_on`, `Walk.walk_nothing`, `Walk.walk_same`, `Walk.walk_written`, `Walk.within_violated`, `Words.boolean_kept`, `Words.boolean_panic`, `Words.boolean_written`, `Words.flag_kept`, `Words.flag_panic`, `Words.flag_written`, `Words.foreign_violated`, `Words.id_iff`, `Words.id_no_panic`, `Words.in_iff`, `Words.in_panic`, `Words.in_space_violated`, `Words.in_written`, `Words.profile_kept`, `Words.profile_panic`, `Words.profile_written`, `Words.target_kept`, `Words.target_panic`, `Words.target_written`, `Words.undefined_kept`, `Words.undefined_written`, `Xlink.chance_violated`, `Xlink.dangling_iff`, `Xlink.dangling_violated`, `Xlink.foreign_gone`, `Xlink.foreign_kept`, `Xlink.foreign_violated`, `Xlink.legacy_violated`, `Xlink.panic_violated`, `Xlink.run_kept_partial`, `Xlink.run_total_iff`, `Xlink.title_violated`, `Xml.adjacent_violated`, `Xml.between_violated`, `Xml.carriage_violated`, `Xml.instruction_violated`, `Xml.leak_violated`, `Xml.noBreak_violated`, `Xml.original_partial`, `Xml.pretty_violated`, `Xml.settled_partial`, `Xml.unleak_violated`, `Xml.unreadable_violated`, `Xml.value_violated`, `Xml.words_partial`.
