{"id": "C01", "title": "Allocation ids stay a dense, retrievable numbering", "statement": "After any history of node allocations and `reorder` calls on one allocator, the ids of the n allocated nodes are exactly 0..n-1 without repetition, and looking a node up by its id returns that very node; the id/lookup consistency assertion never fires.", "quantifier": "every finite sequence of alloc and reorder operations, every tree shape the reorder is applied to", "why_tests_cant": "A test fixes one document and one call sequence; the lookup assertion is an invariant over all histories mixing allocation, detachment and renumbering.", "anchors": ["crates/oxvg_ast/src/arena.rs: Allocator::new, alloc, get, reorder, reorder_internal"]}
{"id": "C02", "title": "Reordering numbers the tree in document order", "statement": "After `reorder(root)` the nodes of root's tree carry the ids 0..k-1 in document (pre-)order, k is the returned length, and nodes outside of the tree keep their relative order after k.", "quantifier": "every forest of allocated nodes and every root in it", "why_tests_cant": "Tests check one or two small trees; document order and preservation of the outside order must hold for every forest.", "anchors": ["crates/oxvg_ast/src/arena.rs: Allocator::reorder, reorder_internal"]}
{"id": "C03", "title": "Tree edits keep the sibling and parent links consistent", "statement": "Starting from a well-formed tree, removing a node, appending a node to an element, inserting a detached node before/after/at an index, and flattening an element keep all five links of every node mutually consistent (first/last child, next/previous sibling, parent), and the resulting child sequence is the one the DOM standard prescribes (erase, append, insert, splice).", "quantifier": "every well-formed heap of nodes and every node/reference argument, hence every finite history of such edits", "why_tests_cant": "Link corruption depends on adjacency (first, last, only child, same parent, other parent); a finite set of trees cannot cover every adjacency and history.", "anchors": ["crates/oxvg_ast/src/node.rs: Node::remove, append_child, insert_before, insert_after, insert, replace_child, empty", "crates/oxvg_ast/src/element.rs: Element::append, before, after, prepend, flatten, replace_with"]}
{"id": "C04", "title": "Retaining children keeps exactly the selected children", "statement": "`retain_children(f)` leaves exactly the children for which f is true, in their original order, reachable both forwards from the first and backwards from the last child.", "quantifier": "every child sequence and every predicate", "why_tests_cant": "The outcome depends on the pattern of kept and dropped neighbours; the code's tests use no pattern where a dropped child sits between kept ones.", "anchors": ["crates/oxvg_ast/src/node.rs: Node::retain_children"]}
{"id": "C05", "title": "Visiting children is complete under self-removal", "statement": "Iterating over the children of a node yields every child present at the start exactly once in order, even when the visitor removes the child being visited; interleaving front and back consumption yields every child exactly once as well.", "quantifier": "every child sequence and every choice of which visited children the callback removes; every interleaving of next and next_back", "why_tests_cant": "Iterator invalidation depends on the interleaving of removal and advancing, an unbounded set of schedules.", "anchors": ["crates/oxvg_ast/src/node.rs: ChildNodes::next, next_back, Node::child_nodes_iter", "crates/oxvg_ast/src/visitor.rs: Visitor::visit_children"]}
{"id": "C06", "title": "Breadth-first search visits every descendant element once", "statement": "Breadth-first iteration from an element yields each descendant element exactly once, never the starting element, parents before children and level by level in document order.", "quantifier": "every tree", "why_tests_cant": "Completeness and order over all tree shapes cannot be enumerated.", "anchors": ["crates/oxvg_ast/src/element.rs: Element::breadth_first, Iterator for breadth first", "crates/oxvg_ast/src/visitor.rs: has_scripts"]}
{"id": "C07", "title": "Attribute storage behaves as an ordered map", "statement": "After setting an attribute, reading that name returns the new value, every other attribute is unchanged and in the same position, the number of attributes with the name stays one; removing a name removes it and only it; for every history of sets and removes no two attributes share a name.", "quantifier": "every attribute list, every name and value, every history of set/remove", "why_tests_cant": "A map law over histories; tests sample single calls.", "anchors": ["crates/oxvg_ast/src/attribute.rs: Attributes::get_named_item, set_named_item, remove_named_item, retain"]}
{"id": "C08", "title": "Sorting attributes is a pure reordering with a canonical result", "statement": "Sorting attributes keeps exactly the same attributes, is idempotent, orders them by namespace class, then the configured name order, then name, and the result does not depend on the initial order of differently-named attributes.", "quantifier": "every attribute list without duplicate names, every configured order, both namespace placements", "why_tests_cant": "A comparator can be inconsistent (non-transitive) on triples no test contains; canonicity ranges over all permutations.", "anchors": ["crates/oxvg_ast/src/attribute.rs: Attributes::sort", "crates/oxvg_optimiser/src/jobs/sort_attrs.rs"]}
{"id": "C09", "title": "Class list operations are set operations on tokens", "statement": "After `add(t)` the list contains t and otherwise the same tokens; after `remove(t)` it contains every other token and not t, and the class attribute disappears exactly if it became empty; `toggle` returns whether t is present afterwards and twice toggling restores the membership; `replace` returns whether the old token was present. No other attribute is affected, whatever cached position the list holds.", "quantifier": "every attribute list whose class attribute (if any) was recognised as a token list, every cached index, every token, every history of operations", "why_tests_cant": "The cached index makes the result depend on the history of unrelated attribute edits.", "anchors": ["crates/oxvg_ast/src/class_list.rs: ClassList::{attr,add,remove,contains,replace,toggle,retain,length}"]}
{"id": "C10", "title": "Escaping text and attribute values loses nothing", "statement": "Escaped output contains no raw `<`, no raw `>`, no quote character that would end the attribute, and every `&` in it starts one of the predefined entities; decoding the predefined entities gives back the original string.", "quantifier": "every string, both quote styles, escaping of quotes on or off", "why_tests_cant": "Injection and loss depend on arbitrary character sequences, including text that already looks like an entity.", "anchors": ["crates/oxvg_ast/src/xmlwriter.rs: XmlWriter::write_escaped"]}
{"id": "C11", "title": "Serialising and reading back a document is the identity", "statement": "Writing a tree of elements, attributes and text with the default options and reading the output with an XML reader for that fragment yields the same tree: same nesting, names, attributes in order and values, and text.", "quantifier": "every tree of elements, attributes and non-blank text", "why_tests_cant": "State-machine writer: correctness depends on all sequences of start/attribute/text/end events.", "anchors": ["crates/oxvg_ast/src/serialize.rs: serialize_node", "crates/oxvg_ast/src/xmlwriter.rs: start_element, write_attribute, write_text, end_element, end_document"]}
{"id": "C12", "title": "Generated ids are distinct, valid and avoid reserved ids", "statement": "The id generator used for minification never returns the same id twice, never returns an id of the reserved set, returns only non-empty strings of ASCII letters, terminates for every reserved set, and returns ids in order of non-decreasing length, skipping no shorter id that is not reserved.", "quantifier": "every number of calls and every finite set of reserved ids", "why_tests_cant": "Collisions at carry boundaries or with particular reserved sets occur beyond any tested count.", "anchors": ["crates/oxvg_optimiser/src/jobs/cleanup_ids.rs: GeneratedId::next"]}
{"id": "C13", "title": "Renaming ids keeps references intact", "statement": "When ids are minified every reference that named the id of an element before names the new id of the same element afterwards, and different elements keep different ids.", "quantifier": "every document's ids and references", "why_tests_cant": "Sequential in-place renaming can conflate references depending on the relation of old and new names; there are unboundedly many id sets.", "anchors": ["crates/oxvg_optimiser/src/jobs/cleanup_ids.rs: CleanupIds::exit_document and helpers"]}
{"id": "C14", "title": "Prefixing ids keeps ids distinct and references intact", "statement": "Prefixing all ids of a document keeps different ids different, every reference to an id follows the id, applying the job twice equals applying it once, and references other than local fragments are untouched.", "quantifier": "every id, prefix, delimiter and reference string", "why_tests_cant": "Collisions occur only for ids that already begin with the prefix; idempotence is a law over all strings.", "anchors": ["crates/oxvg_optimiser/src/jobs/prefix_ids.rs: prefix_id, prefix_reference"]}
{"id": "C15", "title": "Job sets combine as documented", "statement": "Extending a preset takes the user's configuration for every job the user configured and the preset's otherwise; omitting a job disables this job only, whatever it was; `none` disables everything; extending is associative, idempotent and has `none` as unit.", "quantifier": "every pair/triple of job configurations and every job name", "why_tests_cant": "An algebra over 2^50 combinations of configured jobs.", "anchors": ["crates/oxvg_optimiser/src/jobs/mod.rs: Jobs::extend, omit, none", "crates/oxvg_optimiser/src/lib.rs: Extends::extend", "crates/oxvg/src/config.rs: Optimise::resolve_jobs"]}
{"id": "C16", "title": "Only enabled jobs run, once, in a fixed order, and errors stop at important ones", "statement": "Running a job set applies exactly the enabled jobs, each once, in the documented order; the failure of an unimportant job is skipped over and the failure of an important one ends the run with that error.", "quantifier": "every configuration and every pattern of job failures", "why_tests_cant": "Failure patterns over all jobs are exponentially many.", "anchors": ["crates/oxvg_optimiser/src/jobs/mod.rs: run_jobs, Jobs::run"]}
{"id": "C17", "title": "Importing an SVGO plugin list honours every entry", "statement": "Each recognised plugin in an SVGO configuration enables the corresponding job and no other; a plugin not named stays disabled.", "quantifier": "every plugin list", "why_tests_cant": "Name conversion (camelCase to snake_case, renamed plugins) must be right for every sequence of entries.", "anchors": ["crates/oxvg_optimiser/src/jobs/mod.rs: from_svgo_plugin_config, set_svgo_plugin_string, snake_case"]}
{"id": "C18", "title": "The value parser never moves outside of its input", "statement": "For every input string and every sequence of parser operations the parser either succeeds or reports an error: it never panics, the cursor never passes the end and always sits on a character boundary; a failed speculative parse restores the position.", "quantifier": "every string and every sequence of parser operations", "why_tests_cant": "Panics depend on multi-byte characters at particular positions and on combinations of operations.", "anchors": ["crates/oxvg_parse/src/lib.rs: Parser::{read,advance,rewind,take_matches,skip_char,expect_str,expect_ident,...}, try_parse"]}
{"id": "C19", "title": "Numbers are recognised as in the SVG grammar", "statement": "Parsing a number consumes exactly the longest prefix which is a number of the SVG grammar (optional sign, digits, optional fraction, optional exponent) and fails when there is none.", "quantifier": "every string", "why_tests_cant": "Token boundaries in unseparated number sequences such as `1.5.5-3e-7.5` cannot be enumerated.", "anchors": ["crates/oxvg_parse/src/types/number.rs: f64::parse"]}
{"id": "C20", "title": "Every path string is parsed in finitely many steps", "statement": "Parsing path data terminates for every input string with a list of commands or an error.", "quantifier": "every string", "why_tests_cant": "Non-termination can not be observed by a passing test of other inputs.", "anchors": ["crates/oxvg_path/src/parser.rs: Path::parse_extend, command::ID::parse, Data::parse"]}
{"id": "C21", "title": "Formatting path data and parsing it again is the identity", "statement": "Writing a path and parsing the text yields the same commands with the same arguments (up to whether a repeated command letter was written).", "quantifier": "every non-empty list of path commands starting with a move and every finite argument value", "why_tests_cant": "Separator elision depends on the pair of adjacent numbers (sign, leading dot, exponent form); the pairs are unbounded.", "anchors": ["crates/oxvg_path/src/format.rs: format", "crates/oxvg_path/src/paths/svg/command.rs: Args Display, is_space_needed, short_number_from_buffer", "crates/oxvg_path/src/parser.rs"]}
{"id": "C22", "title": "Implicit commands mean what SVG says", "statement": "Argument groups after a command letter without a new letter repeat the command, except that they mean line-to after move-to (absolute or relative as the move was).", "quantifier": "every path string and command list", "why_tests_cant": "Repetition counts are unbounded.", "anchors": ["crates/oxvg_path/src/paths/svg/command.rs: ID::next_implicit", "crates/oxvg_path/src/parser.rs: command::ID::parse"]}
{"id": "C23", "title": "Converting path commands to segments preserves the drawing", "statement": "Interpreting path commands (absolute, relative, shorthand, smooth) into absolute segments produces the curves the SVG specification prescribes: the same subpaths, start points, control points and closures.", "quantifier": "every command list, exact arithmetic", "why_tests_cant": "Relative positions accumulate over arbitrarily long lists; smooth commands depend on the history of preceding commands.", "anchors": ["crates/oxvg_path/src/paths/segment/convert.rs: Data::take, Segment::take, from_svg"]}
{"id": "C24", "title": "Converting segments back to commands preserves the drawing", "statement": "Writing segments as path commands and interpreting these by the SVG specification yields the same segments, whatever shorthand or relative form was chosen as shortest.", "quantifier": "every segment list, exact arithmetic with no rounding", "why_tests_cant": "The chosen form depends on the printed length of numbers, so every form may appear anywhere.", "anchors": ["crates/oxvg_path/src/paths/segment/convert.rs: to_svg, to_svg_line, to_svg_curve, to_svg_arc, compactest_vec"]}
{"id": "C25", "title": "Path simplification keeps the drawn point set for safe options", "statement": "Each simplification pass that is enabled for an element leaves every drawn point and the end points of subpaths in place; passes that would be visible with markers, strokes or line caps are disabled when such styles may apply.", "quantifier": "every segment list and every combination of styles", "why_tests_cant": "Option gating over all style combinations and arbitrarily long segment lists.", "anchors": ["crates/oxvg_path/src/paths/segment/simplify.rs", "crates/oxvg_path/src/optimize.rs: Options", "crates/oxvg_optimiser/src/utils/style_info.rs: gather_optimize_options"]}
{"id": "C26", "title": "Node-removing jobs remove exactly what they say", "statement": "Removing comments, descriptions, titles, metadata, doctypes, processing instructions, style elements, elements with listed ids or classes, raster images and the data of editors deletes exactly the nodes of this kind that the options do not preserve, keeps every other node with its attributes in the original order, and a second run changes nothing.", "quantifier": "every document tree and every option value", "why_tests_cant": "Removal during traversal may skip neighbours; needs all sibling patterns and depths.", "anchors": ["crates/oxvg_optimiser/src/jobs/remove_comments.rs", "crates/oxvg_optimiser/src/jobs/remove_desc.rs", "crates/oxvg_optimiser/src/jobs/remove_metadata.rs", "crates/oxvg_optimiser/src/jobs/remove_title.rs", "crates/oxvg_optimiser/src/jobs/remove_style_element.rs", "crates/oxvg_optimiser/src/jobs/remove_elements_by_attr.rs: element", "crates/oxvg_optimiser/src/jobs/remove_raster_images.rs: element, is_raster_image", "crates/oxvg_optimiser/src/jobs/remove_editors_n_s_data.rs: element, is_editor_namespace"]}
{"id": "C27", "title": "Unused namespace removal keeps every used prefix bound", "statement": "After removing unused namespaces every prefix occurring in an element or attribute name that was declared on the root is still declared, and only declarations nobody uses are removed.", "quantifier": "every document tree", "why_tests_cant": "A single use anywhere in an arbitrarily deep tree matters.", "anchors": ["crates/oxvg_optimiser/src/jobs/remove_unused_n_s.rs"]}
{"id": "C28", "title": "Moving attributes between group and children keeps inherited values", "statement": "Moving common presentation attributes from children to their group, or a group's transform to its children, leaves the value that every leaf element computes for the property unchanged.", "quantifier": "every tree of groups and elements and every assignment of presentation attributes and inline styles", "why_tests_cant": "Computed values depend on the whole ancestor chain and competing style sources.", "anchors": ["crates/oxvg_optimiser/src/jobs/move_elems_attrs_to_group.rs", "crates/oxvg_optimiser/src/jobs/move_group_attrs_to_elems.rs"]}
{"id": "C29", "title": "Recorded editor actions can be read back", "statement": "Every action recorded into the embedded state of a document is read back as the same action with the same arguments, and the recorded history is read in the order of recording.", "quantifier": "every action, every argument value, every history", "why_tests_cant": "Encoder and decoder are written separately; each constructor and each history must agree.", "anchors": ["crates/oxvg_actions/src/state.rs: Action::embed, Action::from_state, State::record, DerivedState::from_state"]}
{"id": "C30", "title": "A selection keeps pointing at the same nodes when ids are renumbered", "statement": "After an action that renumbers the allocation ids, the stored selection lists exactly the nodes selected before, in the same order.", "quantifier": "every tree, every selection, every renumbering", "why_tests_cant": "Depends on the permutation of ids produced by arbitrary tree edits.", "anchors": ["crates/oxvg_actions/src/effects.rs: effect_tree, effect_selection", "crates/oxvg_ast/src/arena.rs: reorder"]}
{"id": "C31", "title": "Lists of values survive printing and parsing", "statement": "Printing a list of integers with its separator and parsing the text gives the same list for each kind of separator.", "quantifier": "every list of integers and every separator kind", "why_tests_cant": "Needs all list lengths and all digits/sign combinations.", "anchors": ["crates/oxvg_collections/src/attribute/list_of.rs: ListOf::parse, write_value", "crates/oxvg_parse/src/types/number.rs: i64::parse"]}
{"id": "C32", "title": "Source positions are reported as line and column", "statement": "For every source text and offset the reported line is the number of line breaks before the offset and the column the distance from the last one; converting back gives the offset, and later offsets never get an earlier position.", "quantifier": "every text and offset", "why_tests_cant": "Boundary behaviour at line breaks for all texts.", "anchors": ["crates/oxvg_ast/src/node.rs: Ranges::to_line_and_col"]}
{"id": "C33", "title": "Qualified names keep their spelling and are compared by namespace", "statement": "A prefix made from a namespace URI and a spelling keeps both; two prefixes are equal exactly if they are bound to the same URI; attribute ids recognised for a spelled name have the expanded name (URI, local name) of the spelling and print the prefix that was spelled; for one element names with the same expanded name are recognised as equal ids; equality of ids is an equivalence relation that implies equal expanded names.", "quantifier": "every namespace URI, prefix spelling, local name and table of known attributes", "why_tests_cant": "Aliased prefixes give infinitely many spellings of one name; the laws of equality are about all of them.", "anchors": ["crates/oxvg_collections/src/name.rs: Prefix::new, value, ns, is_ns, PartialEq", "crates/oxvg_collections/src/attribute.rs: AttrId, Attr::new, parse_attr_id", "crates/oxvg_collections/src/element.rs: parse_attr_id"]}
{"id": "C34", "title": "Identifiers are the XML names", "statement": "Expecting an identifier at a position of the input gives the longest XML name that starts there and leaves the parser right behind it; when no name starts there the result is an error; it never panics.", "quantifier": "every input text and every position in it", "why_tests_cant": "Names range over most of Unicode; the byte oriented cursor behaves differently for each width.", "anchors": ["crates/oxvg_parse/src/lib.rs: Parser::expect_ident, is_name_start_char, is_name_char"]}
{"id": "C35", "title": "Integers parse to their decimal value or fail", "statement": "Parsing an integer skips white space, reads an optional sign and all digits that follow, and gives the value of this numeral; if the value does not fit the integer type the result is an error, never another number.", "quantifier": "every input text and every position in it, for the 64 bit and the 32 bit type", "why_tests_cant": "Needs all digit strings; overflow is far from the values used in tests.", "anchors": ["crates/oxvg_parse/src/types/number.rs: i64::parse, i32::parse"]}
{"id": "C36", "title": "Expectations of the value parser succeed exactly on the expected text", "statement": "At any position between characters, `Parser::expect_char`, `expect_str`, `expect_ident_matching` and `expect_done` return success if and only if the text ahead is the expected character, begins with the expected text, is the expected identifier as a whole, or is empty; on success the cursor stands right behind it.", "quantifier": "Every input, every position between characters, every expected text.", "why_tests_cant": "Tests try a few keywords; the claim is about every keyword and every text that follows it, including keywords that are prefixes of each other.", "anchors": ["crates/oxvg_parse/src/lib.rs"]}
{"id": "C37", "title": "The prefix that is put in front of ids", "statement": "The prefix is the configured text and the delimiter, or nothing when prefixing is turned off, or by default made of the name of the file, so that files with different names get different prefixes; it contains no points or spaces.", "quantifier": "every option, every path", "why_tests_cant": "Whether two files share a prefix is a statement about all pairs of paths.", "anchors": ["crates/oxvg_optimiser/src/jobs/prefix_ids.rs: GeneratePrefix::generate, get_basename"]}
{"id": "C38", "title": "Lists of commands are read as they are spelled", "statement": "`oxvg action` accepts a list of arguments exactly if it consists of commands each followed by its own arguments, and runs these actions with these arguments in this order; an optional number is taken if and only if the next argument is a number.", "quantifier": "every list of arguments, every list of actions", "why_tests_cant": "Commands have different numbers of arguments, some optional, and arguments may look like commands; whether lists are cut correctly depends on all combinations.", "anchors": ["crates/oxvg/src/commands/action.rs: parse"]}
{"id": "C39", "title": "The editing state is kept in the document", "statement": "Opening a document, doing any sequence of actions and saving gives a document whose history is the former history followed by the actions done, and whose selection is the selection at the time of saving; `oxvg action` keeps the history of the document as well.", "quantifier": "every document with a state, every sequence of actions and saves", "why_tests_cant": "Elements of the state are created, detached and put back lazily, so the result depends on the order of actions.", "anchors": ["crates/oxvg_actions/src/state.rs: State::debed, State::embed, State::record, get_selections, get_history", "crates/oxvg_actions/src/effects.rs: effect_selection, effect_state", "crates/oxvg_actions/src/actions/state.rs: select, select_more, deselect, forget", "crates/oxvg_actions/src/actions.rs: Actor::new, snapshot", "crates/oxvg/src/commands/action.rs: ActionRun::run"]}
{"id": "C40", "title": "Toggling a class affects every selected element once", "statement": "After the class action every selected element has the class if and only if it had not before, whichever way it was selected; other tokens, other attributes and other elements are unchanged.", "quantifier": "every selection, every set of elements, every class name", "why_tests_cant": "Selections are built from several queries that may overlap.", "anchors": ["crates/oxvg_actions/src/actions/manipulate.rs: class", "crates/oxvg_actions/src/actions/state.rs: select_more"]}
{"id": "C41", "title": "Parsing builds a well-linked tree in document order", "statement": "Parsing a document succeeds exactly if the nodes are nested at most 1025 levels deep, and gives a tree in which parent, sibling and child links of all nodes agree, nodes have the order and nesting of the source, ids count the nodes in document order, and renumbering and removing nodes work on it.", "quantifier": "all documents of the XML reader, with or without style sheets", "why_tests_cant": "links of every node in trees of every shape; the fault shows only in traversals that follow sibling links of a style sheet", "anchors": ["crates/oxvg_ast/src/parse/roxmltree.rs: attach_child, parse_xml_node, parse_xml_node_children, parse_style, parse_tree_with_allocator", "crates/oxvg_ast/src/arena.rs: reorder, reorder_internal"]}
{"id": "C42", "title": "Names keep their namespaces", "statement": "Every element and attribute name of a parsed document is written with a prefix that, by the declarations written around it, stands for the namespace the name had in the source.", "quantifier": "all documents, all arrangements of namespace declarations", "why_tests_cant": "the prefix map is global state over the whole traversal; which prefix is chosen depends on every declaration met before", "anchors": ["crates/oxvg_ast/src/parse/roxmltree.rs: NamespaceMap, parse_element, parse_attr, parse_expanded_name, find_new_xmlns, find_xml_uri"]}
{"id": "C43", "title": "Computed styles are the styles CSS computes", "statement": "A style reported as static for an element is the value CSS computes for it whichever media conditions hold; a style reported as absent is absent under all conditions; a style is reported as dynamic only if a rule inside an at-rule gives it.", "quantifier": "all elements, ancestors, style sheets, attributes, and truth values of conditions", "why_tests_cant": "jobs drop and rewrite attributes on the strength of these styles; the cascade combines unboundedly many rules, levels and ancestors, and conditions that no test can set", "anchors": ["crates/oxvg_ast/src/style.rs: with_all, with_inherited, with_style, with_nested_style, with_attribute, with_inline_style, get, get_inherited, get_from_css_high_priori, add_declarations, set_declarations"]}
{"id": "C44", "title": "Shortening transforms keeps the picture", "statement": "Converting a transform list moves every point like a list that differs from an exact equivalent of the source only in its numbers, each by at most the tolerance of the configured precision; converting between SVG and CSS notation moves no point; a matrix never gets longer; nothing panics.", "quantifier": "all transform lists, all matrices, all options, all points of the plane", "why_tests_cant": "matrices range over a continuum and the decompositions branch on signs, singularity and exact equality after rounding; tests compare a few printed strings", "anchors": ["crates/oxvg_collections/src/attribute/transform.rs: round, matrix_to_transform, get_compositions, qrab, qrcd, is_identity, merge_translate_and_rotate, optimize, to_matrix, to_matrix_2d, round_arg, smart_round, to_fixed, From<SVGTransform>, TryFrom<&Transform>", "crates/oxvg_optimiser/src/jobs/convert_transform.rs: define_precision, transform, convert_to_shorts, remove_useless"]}
{"id": "C45", "title": "Applying a transform to path data draws the transformed path", "statement": "Path data to which a matrix was applied draws exactly the images, under the matrix, of the curves the path data drew before, in the same order and with the same subpaths; arcs stay arcs with the right radii, rotation, size and direction.", "quantifier": "all path data, all matrices, all points of every curve", "why_tests_cant": "matrices and radii range over a continuum; the axes of an ellipse are found by branching on signs and thresholds, and a wrong direction or axis shows only for some matrices", "anchors": ["crates/oxvg_optimiser/src/jobs/apply_transforms.rs: apply_matrix_to_path_data, transform_absolute_point, transform_relative_point, transform_arc, rotated_ellipse, multiply_transform_matrices"]}
{"id": "C46", "title": "Paths that replace shapes draw the same", "statement": "Where a rectangle, line, polyline, polygon, circle or ellipse is replaced by a path, the path draws the outline of the shape: straight sides run through the same corners up to rounding and are closed where the shape is, and round shapes are met in each of their points exactly once. No rule of a stylesheet starts or stops matching by the change of the name, only shapes that draw nothing are removed, and an ellipse that becomes a circle has the same radii.", "quantifier": "all shapes, lengths, precisions, options and selectors; every point of the outline", "why_tests_cant": "coordinates range over a continuum, and the effect of rounding radii and ends separately is only visible for special numbers", "anchors": ["crates/oxvg_optimiser/src/jobs/convert_shape_to_path.rs: element, visit_selector, rect_to_path, line_to_path, poly_to_path, circle_to_path, ellipse_to_path, lp_px, r_px", "crates/oxvg_optimiser/src/jobs/convert_ellipse_to_circle.rs: element", "crates/oxvg_path/src/geometry.rs: round", "crates/oxvg_ast/src/element.rs: set_local_name"]}
{"id": "C47", "title": "Removing empty and unused elements keeps what is drawn", "statement": "The jobs that remove empty texts, empty containers and unused definitions take nothing from the picture. Every letter of a text and the words they form stay. An element that is not an empty container, and every element around it, stays in its place. Of definitions, everything that is drawn or can be referred to stays with the same content, and what is of no use is removed in one run.", "quantifier": "all documents, options, names and attributes", "why_tests_cant": "an element is empty or unused depending on everything below and around it, to any depth", "anchors": ["crates/oxvg_optimiser/src/jobs/remove_empty_text.rs: element", "crates/oxvg_optimiser/src/jobs/remove_empty_containers.rs: exit_element", "crates/oxvg_optimiser/src/jobs/remove_useless_defs.rs: element, collect_useful_nodes", "crates/oxvg_ast/src/element.rs: is_empty, replace_children", "crates/oxvg_ast/src/visitor.rs: visit, visit_children"]}
{"id": "C48", "title": "Collapsing groups keeps the picture", "statement": "Collapsing groups draws the same things in the same order: each with the same transforms from the outside to the inside, the same inherited properties and the same effects around it. Groups that have no effect go away, except those that are animated and the choices of a switch. The job never fails.", "quantifier": "all documents, names, attributes, values and meanings of attributes", "why_tests_cant": "what an element looks like depends on all groups around it, and attributes move through any number of them one after the other", "anchors": ["crates/oxvg_optimiser/src/jobs/collapse_groups.rs: exit_element, move_attributes_to_child, flatten_when_all_attributes_moved, has_animated_attr, is_group_identifiable, is_position_visually_unstable, is_node_with_filter", "crates/oxvg_ast/src/element.rs: flatten", "crates/oxvg_ast/src/attribute.rs: get_named_item_mut, set_named_item, remove_named_item", "crates/oxvg_collections/src/attribute.rs: Inheritable"]}
{"id": "C49", "title": "Rounding moves no number by more than half a unit of the last decimal", "statement": "Cleaning up numeric values, or lists of values, moves no number by more than half a unit of the last decimal kept: of what is written for numbers, percentages and lengths, or of a pixel where lengths are converted. Elements, attributes, kinds of values and the number of items stay. Single values are rounded by the one job and lists by the other, a second run changes nothing, and both fail only for a precision above 5.", "quantifier": "all documents, attributes, values, units, precisions and options", "why_tests_cant": "tests compare a few printed numbers, and printing rounds to six digits on its own", "anchors": ["crates/oxvg_optimiser/src/jobs/cleanup_numeric_values.rs: document, element", "crates/oxvg_optimiser/src/jobs/cleanup_list_of_values.rs: document, element", "crates/oxvg_collections/src/content_type.rs: round, visit_float, visit_float_not_list, visit_length_value, visit_length_value_not_list"]}
{"id": "C50", "title": "Merging paths keeps what is drawn", "statement": "Merging paths draws the same subpaths in the same order, each with the same attributes. Paths are merged exactly where they follow each other, have no content, no id, the same attributes but for their data, no markers, masks, clipping or references into the document in their style, and do not intersect. Everything else is left alone, and the picture is the same.", "quantifier": "all lists of children, path data, attributes, styles and tests for intersections", "why_tests_cant": "runs of paths may have any length, and data collected for one of them must reach the right element", "anchors": ["crates/oxvg_optimiser/src/jobs/merge_paths.rs: element", "crates/oxvg_path/src/paths/svg/command.rs: as_explicit, is_implicit"]}
{"id": "C51", "title": "Applying a transform keeps what a path looks like", "statement": "Where the transform of a path is applied to its data and removed, the outline of the path on the screen stays, its stroke covers the same region, and gradients and the like are laid out in the same coordinates. Other attributes stay as they are. Paths with an id, a style attribute or references into the document are left alone.", "quantifier": "all paths, transforms, strokes, rules and ancestors with styles, ways to draw strokes", "why_tests_cant": "the look of a stroke depends on values from rules and ancestors and on real matrices; tests compare only the text of a few files", "anchors": ["crates/oxvg_optimiser/src/jobs/apply_transforms.rs: element, apply_stroked", "crates/oxvg_ast/src/style.rs: get", "crates/oxvg_collections/src/attribute/transform.rs: to_matrix_2d"]}
{"id": "C52", "title": "Removing view boxes or dimensions keeps the picture", "statement": "removeViewBox takes `viewBox` away only where it begins in the origin and has the width and height of the element, and this does not change where or how large anything is drawn. removeDimensions replaces `width` and `height` by a view box of that size: shown at the old size the picture is the same, shown at another size it is scaled and centred; the appearance may only change if the dimensions do not match the view box. Nothing else in the document changes.", "quantifier": "for all documents, sizes of the canvas, units, aspect ratios, uses of symbols, patterns and painted elements", "why_tests_cant": "Whether a view box matters depends on units, on the instance of a symbol, on the units and templates of a pattern, on styles and on the canvas; snapshots only compare the written attributes.", "anchors": ["crates/oxvg_optimiser/src/jobs/remove_view_box.rs: element", "crates/oxvg_optimiser/src/jobs/remove_dimensions.rs: element"]}
{"id": "C53", "title": "Removing unknown and default attributes keeps all styles", "statement": "removeUnknownsAndDefaults never changes how the document looks and never fails. Elements and attributes that SVG allows where they stand are kept, unless the attribute has the value it would have without it: its default when no ancestor says otherwise, or the value that is inherited. Every element that stays has the value it had for every property, whichever media conditions hold. Elements with an id keep all attributes known for them, and `style`, `id`, `class`, prefixed attributes and whatever the options say to keep are never removed.", "quantifier": "for all documents, style sheets, options, values, ancestors and conditions of at-rules", "why_tests_cant": "Whether an attribute matters depends on the whole chain of ancestors, on the rules that match them and on tables of hundreds of attributes; snapshots show what was written for a few documents and not what the remaining attributes mean.", "anchors": ["crates/oxvg_optimiser/src/jobs/remove_unknowns_and_defaults.rs: element, processing_instruction, remove_unknown_content, remove_unknown_and_default_attrs", "crates/oxvg_collections/src/element.rs: is_permitted_child, is_permitted_attribute, expected_attributes, expected_attribute_groups", "crates/oxvg_collections/src/attribute.rs: default", "crates/oxvg_ast/src/style.rs: with_inherited, get"]}
{"id": "C54", "title": "Removing empty, deprecated and group attributes changes nothing that is seen or said", "statement": "removeEmptyAttrs, removeNonInheritableGroupAttrs and, unless removeAny is given, removeDeprecatedAttrs never change how the document looks, and they never fail. removeEmptyAttrs removes exactly the attributes without a value other than conditions, so that no property, condition, language, namespace or animation changes. removeNonInheritableGroupAttrs removes from groups only what has no effect on the group and is not inherited. removeDeprecatedAttrs removes only deprecated attributes that no selector asks for: every selector is met by the elements that met it before, and every element has the language and the properties it had.", "quantifier": "for all documents, style sheets, options, values and conditions of at-rules", "why_tests_cant": "What an attribute means depends on its name, on the ancestors and on every selector of the style sheets; snapshots compare text for a dozen documents and cannot say what the removed attributes stood for, and one of them records a change of language as expected.", "anchors": ["crates/oxvg_optimiser/src/jobs/remove_empty_attrs.rs: element", "crates/oxvg_optimiser/src/jobs/remove_deprecated_attrs.rs: element, process_attributes, extract, contains_qual", "crates/oxvg_optimiser/src/jobs/remove_non_inheritable_group_attrs.rs: element", "crates/oxvg_collections/src/content_type.rs: is_empty"]}
{"id": "C55", "title": "Removing useless strokes and fills keeps what is drawn", "statement": "removeUselessStrokeAndFill never changes how the document looks and never fails. Unless removeNone is given no element goes away, every shape is filled and stroked as before, its markers have the size they had, and all its other properties and attributes stay. Attributes of a stroke or fill that is not drawn go away. Elements that are not shapes or have an id, or are within such an element, and documents with scripts or style sheets, stay as they are. With removeNone only shapes that draw nothing go.", "quantifier": "for all documents, options and values", "why_tests_cant": "Whether a stroke or fill is drawn depends on the attributes and styles of all ancestors, on what is left once attributes are gone, and on markers and content that use the same values; snapshots compare text for a handful of shapes.", "anchors": ["crates/oxvg_optimiser/src/jobs/remove_useless_stroke_and_fill.rs: prepare, element, exit_element, remove_stroke, remove_fill", "crates/oxvg_ast/src/style.rs: with_all, with_inherited, get, get_inherited", "crates/oxvg_ast/src/visitor.rs: has_scripts, query_has_stylesheet"]}
{"id": "C56", "title": "Removing hidden elements keeps what is seen and what is referred to", "statement": "removeHiddenElems never changes how the document looks and never fails. Every element that is rendered and visible stays, with its attributes, texts, order and ancestors, and so does every element to which something that stays refers; nothing is added. Elements of zero opacity, shapes without an extent and elements that are not displayed go, unless a use refers to them. Gradients, patterns, clipping paths and the like go only if nothing refers to them or to something in them and there is neither a script nor a style sheet. The result is the same each time.", "quantifier": "for all documents, options, styles, and orders in which hash sets are read", "why_tests_cant": "Whether an element is seen depends on the styles of all its ancestors and on who refers to it from anywhere in the document, over two passes that change the tree while it is visited; snapshots show a few documents, and a hash set is read in an order that differs from run to run.", "anchors": ["crates/oxvg_optimiser/src/jobs/remove_hidden_elems.rs: prepare, element, exit_document, remove_element, ref_element, can_remove_non_rendering_node, is_hidden_style, is_hidden_ellipse, is_hidden_rect, is_hidden_pattern, is_hidden_image, is_hidden_path, is_hidden_poly", "crates/oxvg_ast/src/visitor.rs: visit, visit_children, has_scripts, query_has_stylesheet"]}
{"id": "C57", "title": "Merging style elements keeps the rules that apply", "statement": "`MergeStyles` collects the rules of all `style` elements of CSS in the first one that has rules, and removes the others. For every document, the rules that count afterwards should be those that counted before, in the same order and under the same media queries; nothing else of the document may change, at most one mergeable `style` element is left, and running the job again changes nothing.", "quantifier": "For all documents (any nesting, any number of style elements, types, media queries and rules), all readers of invalid CSS, and the job on or off", "why_tests_cant": "Order and conditions of rules depend on all style elements of a document at once; the tests have a handful of documents with two or three simple sheets, and compare text", "anchors": ["crates/oxvg_optimiser/src/jobs/merge_styles.rs: prepare, element, exit_document", "crates/oxvg_ast/src/node.rs: style, set_style_content", "crates/oxvg_ast/src/parse/roxmltree.rs: parse_style"]}
{"id": "C58", "title": "Inlining style rules keeps the value of every property", "statement": "`InlineStyles` moves declarations from style sheets to the `style` attribute of the elements that match, and removes rules, classes, ids and presentation attributes that are not needed any more. For every document, every property of every element should have the same value by the cascade afterwards, whatever media queries hold. Elements keep their place and name, ids that are referred to stay, an attribute goes only if the `style` attribute declares its property, and a selector goes only if all it matches has its declarations.", "quantifier": "For all documents (any number of style elements, rules, selectors, at-rules, classes and attributes), all environments of media queries, all options, and all selector engines that are right", "why_tests_cant": "The result depends on the specificity, the order and the tokens of all rules at once, and on which elements each selector matches; the tests compare the text of two dozen documents", "anchors": ["crates/oxvg_optimiser/src/jobs/inline_styles.rs: prepare, exit_element, exit_document, inline_rules, strip_allowed_pseudos, is_selector_removable, visit_rule, visit_selector, visit_property"]}
{"id": "C59", "title": "Minifying styles keeps the value of every property and never fails", "statement": "`MinifyStyles` removes selectors whose names, ids and classes no element has, and minifies style sheets and `style` attributes; its documentation says that it never changes the document visually and never fails. For every document and every option but forced removal in documents with scripts, the job should succeed, and every property of every element should have the same value by the cascade afterwards, whatever media queries hold. A selector should go only if it matches nothing, elements and all attributes but `style` stay, and nothing is removed as unused if the document has scripts.", "quantifier": "For all documents (any number of style elements, rules, at-rules, nested rules, selectors and elements), all environments of media queries, all options, and all minifiers of rules and declarations that keep what wins", "why_tests_cant": "Whether a selector may go depends on all elements of the document and on how its parts combine; the tests compare the text of a dozen small documents, none with nested rules, foreign elements or styles that do not parse", "anchors": ["crates/oxvg_optimiser/src/jobs/minify_styles.rs: prepare, element, exit_document, visit_rule", "crates/oxvg_optimiser/src/utils/minify_style.rs: style, style_list"]}
{"id": "C60", "title": "Sorting definitions only reorders the children of defs, predictably", "statement": "`SortDefsChildren` sorts the children of every `defs` element: names that occur more often come first, then longer names, then names in reverse alphabetical order; elements with the same name keep their order. Nothing is lost or changed otherwise, the order of names depends on the names only, running the job again changes nothing, the job never fails, and the document stays sound for the jobs that follow, such as `RemoveDesc`.", "quantifier": "For all documents (any number of `defs` elements, children, comments and text between them, any names), and all sorts the standard library may use beyond what it promises", "why_tests_cant": "The comparison is given a mixture of elements and other nodes, and the links between siblings are only wrong at the first child; the one test sorts six elements and prints the result", "anchors": ["crates/oxvg_optimiser/src/jobs/sort_defs_children.rs: prepare, element", "crates/oxvg_ast/src/element.rs: sort_child_elements", "crates/oxvg_ast/src/node.rs: remove"]}
{"id": "C61", "title": "Cleaning up attributes changes only whitespace that separates words", "statement": "`CleanupAttrs` replaces newlines, trims, and replaces runs of whitespace in attributes whose content is text; its documentation says that it should never affect the appearance of the document and never fails. For every document and all options, elements, other nodes, names and attributes that are not text should stay; a text should keep its words in their order, be as clean as the options ask for, not become longer, and stay if it is clean already; running the job again should change nothing. Attributes in which whitespace has a meaning should not be read differently.", "quantifier": "For all documents, all texts (lists of code points) and all eight combinations of options", "why_tests_cant": "There are infinitely many texts and kinds of whitespace; the three tests compare the output of one small document each, none with an attribute in which whitespace means something", "anchors": ["crates/oxvg_optimiser/src/jobs/cleanup_attrs.rs: element", "crates/oxvg_collections/src/attribute.rs: value_mut"]}
{"id": "C62", "title": "The test for intersecting paths finds every overlap", "statement": "`Path::intersects` gives an answer for every pair of paths. If it says no, a straight line runs between all that any subpath of the one path draws or fills and all that any subpath of the other does, so that they have boundary points in common at most; lines that cross are found. If it says yes, the convex hulls of the control points of two subpaths have a point in common. A path that draws nothing intersects none.", "quantifier": "for all paths of lines, Bézier curves and arcs, with any number of subpaths and any points, in any position to each other; yes means a common point for subpaths whose numbers of control points have a product of at most 10,000", "why_tests_cant": "Merging paths and removing paths outside of the canvas rely on the answer; a wrong one for a single position changes the picture. The search walks around hulls and from simplex to simplex, with cases for collinear, equal and touching points, and whether it ends depends on the whole input; tests try some shapes.", "anchors": ["crates/oxvg_path/src/gjk_intersection.rs: intersects, convex_hull, support_point, get_support, process_simplex, build_bbox, hull_nest", "crates/oxvg_path/src/geometry/point.rs: orth, cross, dot"]}
{"id": "C63", "title": "Arc commands draw the arc they describe", "statement": "The arc made from the arguments of an `A` or `a` command is the one arc that SVG assigns to them: it runs from the pen to the end point, on an ellipse with the given rotation and the given radii (or the smallest multiple of them that reaches), in the direction of the sweep flag, and it is at least or at most half of the ellipse as the large-arc flag says. Writing the arguments of an arc ends, and reading them gives the same points again, or points within the tolerance. Reversing, clipping and dividing an arc keep its points.", "quantifier": "All radii, rotations, flags and points in exact real arithmetic; all fractions of the way; all tolerances and precisions.", "why_tests_cant": "Arguments are real numbers and the four arcs between two points differ by flags whose effect depends on quadrant, rotation and the size of the radii; tests can only pin single arcs. That writing ends and stays within the tolerance depends on the radii, the sweep and the precision together.", "anchors": ["crates/oxvg_path/src/geometry/arc.rs: from_arc_to, from_arc_by, point_at, point_at_angle, to_arc_to, radius_factor, subdivide_t, clamp_t, reverse, is_arc_to_line", "crates/oxvg_path/src/math.rs: euclid_gcd_lossy, radius_factor", "crates/oxvg_path/src/geometry/point.rs: angle_radians, rotate_radian, quadrant"]}
{"id": "C64", "title": "Removing paths outside of the canvas does not change the picture", "statement": "A path is removed only if nothing of it can be seen: what filling it may paint is separated from the view box by a line. All other paths that are seen stay, in their order, with their attributes and the same areas; elements other than paths, and everything inside of an element with a `transform` attribute, stay as they are. Without a view box or fixed width and height nothing changes. A path all of whose points are beyond one side of the canvas is removed.", "quantifier": "All documents, all view boxes, all path data of lines, curves and arcs in exact arithmetic", "why_tests_cant": "Whether a path is seen depends on every point of every subpath and on the position of the canvas; the decision goes through the conversion to segments, hulls and a search. Tests show a few squares beside the canvas.", "anchors": ["crates/oxvg_optimiser/src/jobs/remove_off_canvas_paths.rs: prepare, element, gather", "crates/oxvg_path/src/gjk_intersection.rs: intersects", "crates/oxvg_path/src/paths/segment/convert.rs: from_svg"]}
{"id": "C65", "title": "Removing XLink keeps links, tooltips and everything else", "statement": "After `removeXlink`, for every document, every element links to what it linked to, opens it in the same place and has the same tooltip; attributes that have nothing to do with XLink stay; every attribute of XLink that stays has a declared prefix; the job does not panic.", "quantifier": "every document, every assignment of prefixes, both values of includeLegacy", "why_tests_cant": "The stacks of prefixes are shared by all elements, so what happens to one attribute depends on the whole document before it; tests only look at a few documents.", "anchors": ["crates/oxvg_optimiser/src/jobs/remove_xlink.rs: element, exit_element, handle_show, handle_title, handle_href", "crates/oxvg_ast/src/attribute.rs: remove_attribute, set_named_item"]}
{"id": "C66", "title": "Every result is written to its own place and nothing else is touched", "statement": "`oxvg optimise PATH -o OUT` (and `format`) writes for every SVG file below PATH its result to the same relative place below OUT, and changes no other file; files for which parsing or a job fails stay as they are; the order and number of threads do not matter; `-o` without a value writes in place.", "quantifier": "every file system, every set of files, every schedule of the threads, every outcome of the jobs", "why_tests_cant": "Threads read and write the same disk while the walk is still going on; a test sees one schedule of one directory.", "anchors": ["crates/oxvg/src/walk.rs: run, handle_stdin, handle_path, output", "crates/oxvg/src/commands/optimise.rs: walk", "crates/oxvg/src/commands/format.rs: run"]}
{"id": "C67", "title": "A selector selects the elements that it matches", "statement": "`Element::select` gives exactly the elements below the element that match the selector by the rules of CSS, each once, level by level and in document order within a level; `matches_naive` says of one element whether it matches.", "quantifier": "every document, every selector made of names, ids, classes, attributes, structural pseudo-classes, combinators, :not and :is, every choice of addresses for the wrappers of elements", "why_tests_cant": "selectors combine without limit, and what is wrong about places depends on where temporaries are in memory, which tests see only by chance; no test asks for names with upper case", "anchors": ["crates/oxvg_ast/src/selectors.rs: Select::next, matches_with_scope_and_cache, matches_naive, opaque, parent_element, prev_sibling_element, is_html_element_in_html_document, has_local_name, is_same_type, attr_matches, is_link, has_id, has_class, is_empty, is_root", "crates/oxvg_ast/src/element.rs: select, breadth_first, children_iter, parent_element, previous_element_sibling, next_element_sibling", "crates/oxvg_ast/src/attribute.rs: get_named_item_local"]}
{"id": "C68", "title": "Turning style attributes into attributes keeps the look", "statement": "`convertStyleToAttrs` turns declarations of the `style` attribute into attributes. Every property of every element keeps its value; declarations that cannot be attributes stay in order; the last declaration of a property wins, and important ones win over others; nothing else changes.", "quantifier": "every document, every style attribute, every style sheet, both values of `keepImportant`", "why_tests_cant": "which value wins depends on the declarations, on all style sheets and on the element together; the snapshots show two documents without style sheets, and one of them pins a wrong result", "anchors": ["crates/oxvg_optimiser/src/jobs/convert_style_to_attrs.rs: element", "crates/oxvg_collections/src/attribute.rs: try_from"]}
{"id": "C69", "title": "Patterns remove the attributes that they match", "statement": "`removeAttrs` removes from every element exactly the attributes for which some pattern matches the name of the element, the name of the attribute and its value, each as a whole; a part that is an asterisk or left out matches everything; with `preserveCurrentColor`, attributes with the value `currentColor` stay; all else stays.", "quantifier": "every document, every list of patterns, every separator, both values of `preserveCurrentColor`", "why_tests_cant": "patterns are programs; the tests use five of them, all with parentheses around alternatives and with all parts given", "anchors": ["crates/oxvg_optimiser/src/jobs/remove_attrs.rs: create_regex, parse_pattern, element", "crates/oxvg_optimiser/src/utils/regex_memo.rs: get, is_match"]}
{"id": "C70", "title": "Backgrounds for filters are only dropped if they do nothing", "statement": "`cleanupEnableBackground` changes nothing but `enable-background`. If the document has no filter, the attribute goes. If it has one, the attribute goes only from `<svg>` elements whose width and height it repeats, and becomes `new` on `<mask>` and `<pattern>` elements whose width and height it repeats; every other element keeps its background. A second run changes nothing.", "quantifier": "every document, every list of attributes, every value of `enable-background`, every style attribute", "why_tests_cant": "the tests have documents with one element that has a background; whether a filter is elsewhere, whether styles and attributes are both there, and what sizes are given in are combined without end", "anchors": ["crates/oxvg_optimiser/src/jobs/cleanup_enable_background.rs: prepare, visit_declaration_block, element, new"]}
{"id": "C71", "title": "currentColor everywhere but in masks", "statement": "`convertColors` with the method `currentColor` makes every colour in the document that of the text around it, except that masks stay as they are; with the default method it changes nothing.", "quantifier": "every document, every nesting of elements and masks, every attribute and style", "why_tests_cant": "what colour an element uses depends on all elements around it; the tests look at the text of single attributes", "anchors": ["crates/oxvg_optimiser/src/jobs/convert_colors.rs: prepare, element, visit_color", "crates/oxvg_collections/src/content_type.rs: visit_color, visit_color_not_list"]}
{"id": "C72", "title": "No scripts are left, and only scripts are removed", "statement": "`removeScripts` leaves no script element, no attribute for an event and no link to a script in the document, and everything else, with what was in such links, in its place.", "quantifier": "every document, every nesting of links and scripts, every spelling of an address", "why_tests_cant": "absence of scripts is a claim about all documents; the test has one document in which the content of the link is one element", "anchors": ["crates/oxvg_optimiser/src/jobs/remove_scripts.rs: element, exit_element", "crates/oxvg_ast/src/visitor.rs: has_scripts", "crates/oxvg_ast/src/node.rs: retain_children", "crates/oxvg_ast/src/element.rs: flatten"]}
{"id": "C73", "title": "Precheck refuses exactly what cannot be kept", "statement": "With `precleanChecks`, `precheck` refuses a document exactly if it holds scripts, animation, conditional attributes with a value or references to other documents, names the first of them, and never changes a document; with `failFast` off it only logs.", "quantifier": "every document and every choice of the options", "why_tests_cant": "that nothing passes that should not is a claim about all documents; the tests have one document for each error", "anchors": ["crates/oxvg_optimiser/src/jobs/precheck.rs: element, check, check_for_unsupported_elements, check_for_script_attributes, check_for_conditional_attributes, check_for_external_xlink"]}
{"id": "C74", "title": "Attributes and classes given for the root element are added to it", "statement": "`addAttributesToSVGElement` adds to the root element exactly those of the given attributes that it does not have, `addClassesToSVGElement` exactly those of the given classes; what was there stays, no other element changes, and the result is the same each time.", "quantifier": "every document and every choice of the options", "why_tests_cant": "which attributes are there, and with which prefixes, depends on document and options together; the tests have a handful of pairs", "anchors": ["crates/oxvg_optimiser/src/jobs/add_attributes_to_s_v_g_element.rs: element", "crates/oxvg_optimiser/src/jobs/add_classes_to_s_v_g_element.rs: element", "crates/oxvg_ast/src/element.rs: find_xmlns, parse_attr_id, is_root"]}
{"id": "C75", "title": "Gradients of one stop are replaced by their colour, and nothing looks different", "statement": "`convertOneStopGradients` replaces every reference to a gradient with one stop by the colour of the stop and removes the gradient; every fill and stroke looks the same as before, and no other element is removed or changed except `defs` that become empty.", "quantifier": "every document, and every order of the maps of the implementation", "why_tests_cant": "which gradients are templates of which, and which paints refer to them, is a graph over the whole document; the tests have three graphs", "anchors": ["crates/oxvg_optimiser/src/jobs/convert_one_stop_gradients.rs: element, exit_element, get_color, update_color_references, update_style_references"]}
{"id": "C76", "title": "A curve that becomes an arc looks the same", "statement": "When `convertPathData` recognises a cubic curve as an arc of a circle, the arc starts and ends where the curve does, goes the same way around, and no point of the curve is farther from the arc than the tolerance; other curves are left alone.", "quantifier": "every start, every three control points, every tolerance, every choice of the arcs that are taken", "why_tests_cant": "the curve is compared with the circle in five points only, and there are infinitely many others; the tests have curves of a quarter of a circle and less", "anchors": ["crates/oxvg_path/src/geometry/ellipses.rs: fit_curve, angle_at_point, ellipse_tolerance, point_at_angle", "crates/oxvg_path/src/geometry/arc.rs: fit_curve", "crates/oxvg_path/src/paths/segment/simplify.rs: arc_curves"]}
{"id": "C77", "title": "Parts of a curve and points along it are on the curve", "statement": "Dividing a curve, reversing it and taking a part of it gives curves that run exactly along the curve; the place that is found for a point is at the point, up to the tolerance, and a point of the curve is found; the coordinates along a curve are as many as announced, and the line through them stays close to the curve.", "quantifier": "every cubic curve, every parameter, every point, every tolerance, in exact arithmetic", "why_tests_cant": "a curve has infinitely many points and parameters; the tests divide one curve in the middle and look for one point, which is where the search starts", "anchors": ["crates/oxvg_path/src/geometry/curve.rs: point_at_from, new_quad, subdivide_t, subdivide_at, reverse, clamp_t, clamp_at, t_at, control_point_distance_squared", "crates/oxvg_path/src/algorithm/coords_iter.rs: new_with_tolerance, next, len"]}
{"id": "C78", "title": "Parts of an arc and points along it are on the arc", "statement": "The place that is found for a point of an arc is where the point is, and a point farther away than the tolerance is not found; the length of an arc does not depend on its direction; the tangent is that of the arc; the curve for an arc is there when it is close; the coordinates along an arc are as many as announced, and the line through them stays close to the arc.", "quantifier": "every centre, radii, rotation, start and sweep, every point, every tolerance, in exact arithmetic", "why_tests_cant": "an arc has infinitely many points; the tests look for the middle of one arc, and measure one quarter of a circle", "anchors": ["crates/oxvg_path/src/geometry/arc.rs: t_at, subdivide_at, clamp_at, len, tangent_t, to_curve_to", "crates/oxvg_path/src/geometry/ellipses.rs: point_at_angle, ellipse_tolerance, angle_at_point", "crates/oxvg_path/src/algorithm/coords_iter.rs: new_with_tolerance, next, len"]}
{"id": "C79", "title": "Combining paths gives the combined area, drawn along the paths", "statement": "Intersecting, uniting, subtracting or excluding paths gives a path that fills the corresponding area, consists of parts of the paths that were combined, keeps their curves and arcs, and never panics; on selected elements it leaves what is drawn as the operation demands and keeps only the last element.", "quantifier": "every list of paths with lines, curves and arcs, every rule for filling, every operation, every order in which the entries are found, every list of selected elements, in exact arithmetic", "why_tests_cant": "the tests combine a handful of pairs of shapes that are at most 20 wide, so that no curve is far enough from its polygon to panic; none crosses itself, has a transform or is alone", "anchors": ["crates/oxvg_path/src/algorithm/bool_ops.rs: boolean_op", "crates/oxvg_path/src/algorithm/bool_ops/i_overlay_integration.rs: flatten_segment, segment_path_from_shapes, segment_from_ring, clamp_arc_for_edge, find_matching_segment, project_on_polyline", "crates/oxvg_actions/src/actions/manipulate/path.rs: boolean_op, path_union, path_subtract, path_intersect, path_xor"]}
{"id": "C80", "title": "The linter reports what is unused and nothing that is used", "statement": "A declaration of a namespace is reported if and only if no name inside its element is written with it; an id is reported if and only if nothing in the document refers to it; an attribute is reported as a default value if and only if it can be left out without changing the drawing; each problem is reported once.", "quantifier": "every document with every nesting of elements, declarations, ids and references; every style sheet; every property, inherited or not", "why_tests_cant": "the tests look at one document per rule with a single declaration or id; none has names on the declaring element, nested or repeated declarations, selectors, or inherited values", "anchors": ["crates/oxvg_lint/src/rules/mod.rs: prepare, exit_element, exit_document, track_id_references, push_xmlns, track_xmlns, visit_url", "crates/oxvg_lint/src/rules/no_unused_xmlns.rs: no_unused_xmlns", "crates/oxvg_lint/src/rules/no_unused_ids.rs: no_unused_ids", "crates/oxvg_lint/src/rules/no_default_attributes.rs: no_default_attributes", "crates/oxvg_ast/src/parse/roxmltree.rs: parse_element"]}
{"id": "C81", "title": "A report shows the place in the source it is about", "statement": "A report shows the lines of the source that its range touches, and marks exactly the range under them, for every source and range, without panicking.", "quantifier": "every source text, every range in it, every start of an element", "why_tests_cant": "the tests print reports for short ASCII documents, with ranges on one line", "anchors": ["crates/oxvg_lint/src/error.rs: display_context", "crates/oxvg_lint/src/utils.rs: naive_range"]}
{"id": "C82", "title": "The outcome of linting reflects the problems, for shells and editors", "statement": "Linting tells success exactly if no rule that is on finds a problem and counts errors and warnings by the severities of the rules; the command fails exactly if a problem at the chosen level is found, by the chosen configuration; printing the configuration and using it changes nothing; an editor shows the problems of the current text.", "quantifier": "every configuration, every outcome of the rules, every list of files, every history of opening and changing documents", "why_tests_cant": "tests of the linter call single rules; the command, the configuration and the server have no tests, and an editor would need a history of changes", "anchors": ["crates/oxvg_lint/src/parse.rs: lint_internal, off, recommended", "crates/oxvg_lint/src/rules/mod.rs: Severity, Rules, element", "crates/oxvg/src/commands/lint.rs: Check, walk", "crates/oxvg/src/commands/lint/lsp.rs: lint, did_open, did_change", "crates/oxvg/src/config.rs: Config", "crates/oxvg/src/commands/optimise.rs: handle_config"]}
{"id": "C83", "title": "Replacing duplicate paths by references changes nothing that is drawn", "statement": "After `reusePaths` every element draws what it drew before, paths that share data, fill and stroke are replaced by references to one definition and no other element changes, references elsewhere in the document still mean the same, and the document is readable.", "quantifier": "every document, every nesting, every set of ids and references, every style sheet", "why_tests_cant": "the tests compare the output with a snapshot, which shows an undeclared prefix and a lost transform, on six documents; whether the drawing is the same needs the meaning of `use` and inheritance", "anchors": ["crates/oxvg_optimiser/src/jobs/reuse_paths.rs: prepare, element, exit_element, add_path, has_id", "crates/oxvg_ast/src/element.rs: set_local_name"]}
{"id": "C85", "title": "JSX made from a document stands for the document", "statement": "The JSX that `oxvg jsx` writes parses as JSX and reads as the same tree: the same elements in the same order, every attribute under the name React knows it by with its value, no two attributes under one name, and the same text.", "quantifier": "every document, every nesting, every attribute name, every text", "why_tests_cant": "the tests compare printed strings for a handful of documents; whether a string parses, and as what, is not tested, and the attribute tables have hundreds of rows", "anchors": ["crates/oxvg_jsx/src/swc.rs: to_jsx, element_to_jsx, attr_to_jsx, attr_value_to_svg", "crates/oxvg_jsx/src/utils/attr_to_jsx_str.rs: attr_to_jsx_str"]}
{"id": "C84", "title": "A module made from a document loads", "statement": "Every identifier and every type in the module `oxvg jsx` writes is imported or declared before it is used and no name is declared twice, the imports are valid and name what their source exports, the component has a name that JSX takes for a component, and the index exports every component once under the name its module exports it by.", "quantifier": "every document, every combination of options, every file name, every sequence of runs", "why_tests_cant": "the tests compare printed modules for some options; that every name resolves is a property of all combinations, and the modules are never loaded", "anchors": ["crates/oxvg_jsx/src/swc/get_variables.rs: new, get_jsx_runtime_import, default_template", "crates/oxvg_jsx/src/config.rs: jsx_runtime_import, opts", "crates/oxvg/src/commands/jsx.rs: path_to_component_name, append_to_index_js"]}
{"id": "C86", "title": "The configuration of a component does what it says", "statement": "The rendered component has the properties it is given, then the configured ones, then those of the document, in the documented order; a given title or description is rendered as the one of the picture and is what labels it, and without one the document is unchanged; replaced values are replaced wherever they occur and only once; the JSX for React Native has only elements it knows and can be parsed.", "quantifier": "every document, every configuration, every set of properties given to the component", "why_tests_cant": "rendering needs a JavaScript runtime; the tests compare printed code for single options on one document", "anchors": ["crates/oxvg_jsx/src/swc/preset.rs: preset, replace_element_conditionally, set_attribute, set_value_recursive, convert_tree_to_react_native, parse_templatable_attr"]}
{"id": "C87", "title": "Durations keep their length", "statement": "The duration of an animation that is written is a duration by the grammar of clock values and lasts as long as the one that was read.", "quantifier": "every clock value: full, partial and timecounts, every unit, every fraction", "why_tests_cant": "the tests print a handful of values; a value that is read and written again may look right and last longer", "anchors": ["crates/oxvg_collections/src/attribute/animation_timing.rs: ClockValue::parse, ClockValue::write_value, Metric::parse, Dur::parse"]}
{"id": "C88", "title": "Animations begin and end when they did", "statement": "The begin or end value that is written names the same event of the same element and waits for the same time in the same direction as the one that was read, and every value the grammar allows is read.", "quantifier": "every begin value: offsets, events, other elements, every sign, every clock value", "why_tests_cant": "the tests write values and compare strings; what a string means to a reader, and which strings are not read at all, is not tested", "anchors": ["crates/oxvg_collections/src/attribute/animation.rs: BeginEnd::parse, BeginEnd::write_value", "crates/oxvg_collections/src/attribute/animation_timing.rs: is_negative", "crates/oxvg_collections/src/content_type.rs: visit_id"]}
{"id": "C89", "title": "Removing attributes by selector removes those of the selected elements", "statement": "For each item of the configuration, exactly the elements that match its selector lose exactly the attributes that it lists; all else stays as it was, and a selector that cannot be parsed is an error.", "quantifier": "every document, every list of items with any selectors and names", "why_tests_cant": "the tests have documents with one matching element; that removing an attribute changes which elements are selected next depends on the order of the iterator and shows with nested matches only", "anchors": ["crates/oxvg_optimiser/src/jobs/remove_attributes_by_selector.rs: document", "crates/oxvg_ast/src/selectors.rs: Select::next, Select::new_with_selector", "crates/oxvg_ast/src/element.rs: breadth_first, Iterator::next"]}
{"id": "C90", "title": "Parsing with xml5ever keeps names in their namespaces", "statement": "The document that the xml5ever parser returns has the elements and attributes of the source with the same prefixes and local names, its declarations are well-formed, and by them every element and every prefixed attribute is in the namespace it has in the source; the parser does not panic.", "quantifier": "every document with bound prefixes", "why_tests_cant": "the declarations that are written depend on all names in document order and on one map for the whole document; tests have one namespace or two, in SVG files with usual prefixes", "anchors": ["crates/oxvg_ast/src/parse/markup5ever.rs: find_new_xmlns, find_xml_uri, add_xmlns, create_element, append", "crates/oxvg_collections/src/name.rs: Prefix::new"]}
{"id": "C91", "title": "Keyword values are written with the meaning they were read with", "statement": "A value of an attribute that is made of keywords (the enums of the attributes, `inherit`, `paint-order`, `preserveAspectRatio`, `font-variant`) is read exactly if it is valid, and the text that is written for it stands for the same value and is read as it.", "quantifier": "every text of such an attribute, for all enums", "why_tests_cant": "the values are lists of words in any order, with any white space and with defaults for those left out; the tests have a few usual values for some attributes", "anchors": ["crates/oxvg_collections/src/attribute.rs: enum_attr", "crates/oxvg_collections/src/attribute/presentation.rs: PaintOrder, FontVariant, FontVariantLigatures, FontVariantNumeric, FontVariantEastAsian", "crates/oxvg_collections/src/attribute/uncategorised.rs: PreserveAspectRatio", "crates/oxvg_collections/src/attribute/inheritable.rs: Inheritable", "crates/oxvg_parse/src/lib.rs: parse_string"]}
{"id": "C92", "title": "Lint rules report exactly the names and values that break them, at their place", "statement": "For every element, the rules on deprecated, unknown and invalid elements and attributes and on XLink report each attribute (or element) with the problem exactly once and nothing else, whatever prefixes the document uses, and the range of a report is that of the attribute in the source.", "quantifier": "every element with all its attributes, prefixes and values, for all tables of names", "why_tests_cant": "the tests have one or two elements with the usual prefixes each; prefixes, equal expanded names, references in values and the rest of partly parsed paths are not tested", "anchors": ["crates/oxvg_lint/src/rules/no_deprecated.rs: no_deprecated", "crates/oxvg_lint/src/rules/no_invalid_attributes.rs: no_invalid_attributes", "crates/oxvg_lint/src/rules/no_unknown_attributes.rs: no_unknown_attributes", "crates/oxvg_lint/src/rules/no_unknown_elements.rs: no_unknown_elements", "crates/oxvg_lint/src/rules/no_xlink.rs: no_xlink", "crates/oxvg_ast/src/parse/roxmltree.rs: parse_element, parse_attr", "crates/oxvg_collections/src/element.rs: info, is_permitted_child"]}
{"id": "C93", "title": "Values of several numbers keep their numbers", "statement": "Every valid value of viewBox, clip (with plain numbers), enable-background and the attributes of one or two numbers is read, and it is written as a valid value with the same numbers; values in error are not made valid.", "quantifier": "all texts, with all ways to write numbers (signs, fractions, exponents), white space and commas", "why_tests_cant": "the tests read a handful of texts with small integers and compare the values, not the numbers after writing; there are endless ways to write and to separate numbers", "anchors": ["crates/oxvg_collections/src/attribute/uncategorised.rs: ViewBox, parse, write_value", "crates/oxvg_collections/src/attribute/presentation.rs: Clip, EnableBackground, parse, write_value", "crates/oxvg_collections/src/attribute/core_attrs.rs: NumberOptionalNumber, parse, write_value"]}
{"id": "C94", "title": "Values of a keyword or a number keep their meaning", "statement": "Every valid value of font-size-adjust, repeatCount, repeatDur, min, max, rotate, key splines and of frequencies is read, and it is written as a valid value of the same meaning; a repeatCount of zero or below is not read; nothing else is read.", "quantifier": "all texts, with all ways to write numbers and white space around them, and all ways to write units", "why_tests_cant": "the tests read one or two texts of each kind; they hold the spelling of the unit in the code for right, since the test has the same one", "anchors": ["crates/oxvg_collections/src/attribute/presentation.rs: FontSizeAdjust, parse, write_value", "crates/oxvg_collections/src/attribute/animation_timing.rs: RepeatCount, MinMax, RepeatDur, parse, write_value", "crates/oxvg_collections/src/attribute/uncategorised.rs: Rotate, parse, write_value", "crates/oxvg_collections/src/attribute/core_attrs.rs: Frequency, parse, write_value", "crates/oxvg_collections/src/attribute/animation.rs: ControlPoint, parse, write_value"]}
{"id": "C95", "title": "Words and names keep their text", "statement": "Every valid value of target, in, aria flags, boolean attributes, ids and names of colour profiles is read without a panic, and it is written as it was, but for white space around it and the case of the letters of sRGB.", "quantifier": "all texts: all XML names, with any white space around them, and texts that are not names", "why_tests_cant": "the tests read the keywords and one ASCII name each; whether a text crashes depends on a single character that no test has", "anchors": ["crates/oxvg_collections/src/attribute/uncategorised.rs: Target, ColorProfileName, TrueFalse, TrueFalseUndefined, parse, write_value", "crates/oxvg_collections/src/attribute/filter_effect.rs: In, parse, write_value", "crates/oxvg_collections/src/attribute/core_attrs.rs: Boolean, NonWhitespace, parse, write_value", "crates/oxvg_parse/src/lib.rs: expect_ident, is_name_start_char"]}
{"id": "C96", "title": "Transforms keep their meaning when they are read and written", "statement": "Every valid transform attribute is read, and it is written as a valid transform of the same functions with the same numbers: the second coordinate of a translation may be left out only if it is zero, the second factor of a scale only if it is the first one, the centre of a rotation only if it is the origin. Nothing that is not a transform is read as one, and no text makes the program panic.", "quantifier": "all texts: any number of functions, any numbers, white space and separators; any behaviour of the CSS parser on other text", "why_tests_cant": "the tests read a dozen single functions and never write or read lists; the limit of 2048 functions, the separators, and what follows a function in CSS are not tested", "anchors": ["crates/oxvg_collections/src/attribute/transform.rs: SVGTransform, SVGTransformList, parse, write_value, skip_comma_and_whitespace", "crates/oxvg_parse/src/types/lightningcss.rs: impl_type", "crates/oxvg_parse/src/lib.rs: expect_ident, skip_char, try_parse"]}
{"id": "C97", "title": "The information on a selection is what all of its elements share", "statement": "The information derived for a selection gives the name, the attributes with their values, the permitted categories and elements, the expected attributes and groups, and the text, exactly as far as every selected element has or permits them. Ids without a node are ignored, there is no information if a selected node is not an element, and an error is reported only if an attribute cannot be printed.", "quantifier": "all selections of any length and order with repetition, all elements with any attributes and children, all tables of names", "why_tests_cant": "the tests look at few selections, and an intersection that goes wrong only for some number or order of elements is not seen by them; the recorded results of the tests would also record a wrong result", "anchors": ["crates/oxvg_actions/src/info.rs: new", "crates/oxvg_actions/src/state.rs: info", "crates/oxvg_ast/src/node.rs: text_content, text_content_recursive"]}
{"id": "C98", "title": "Lists of points keep their points", "statement": "A value of the attribute points that follows the SVG grammar is read as a move to the first point and lines to the others, with all its numbers in their order; it is written without a command letter, and what was written is read as the same points. A value that is not a list of points is not turned into one.", "quantifier": "all lists of points of any length with any separators, all numbers, all other texts", "why_tests_cant": "the tests contain few lists of points; whether neighbouring numbers run together depends on both numbers, and texts that are not lists of points are hardly tested", "anchors": ["crates/oxvg_collections/src/attribute/path.rs: Points::parse, Points::write_value", "crates/oxvg_path/src/parser.rs: parse_extend", "crates/oxvg_path/src/format.rs: format"]}
{"id": "C99", "title": "Setting attributes and styles changes the selected elements and nothing else", "statement": "After the action attr every selected element that accepts the attribute has the given value, and after the action style every selected element that accepts style has the declaration behind its former ones, important if and only if the value ends with the word for it; other attributes, their order, other declarations and other nodes are unchanged. If the property or its value cannot be read, there is an error and nothing is changed. No name of an attribute ends the program.", "quantifier": "all selections with repetition and with ids without an element, all documents, all names and values", "why_tests_cant": "the tests look at one element and three names; the effect on other elements, repeated ids and names that are not well-formed are not tested", "anchors": ["crates/oxvg_actions/src/actions/manipulate.rs: attr, style", "crates/oxvg_ast/src/attribute.rs: set_named_item", "crates/oxvg_ast/src/element.rs: parse_attr_id"]}
