{
 "claims": [
  {
   "property": "C01",
   "status": "proved",
   "theorems": [
    "Verif.Arena.history_spec",
    "Verif.Arena.alloc_spec",
    "Verif.Arena.new_spec",
    "Verif.Arena.clone_violated"
   ],
   "note": "For one allocator at a time. A cloned allocator breaks the numbering (clone_violated); the property speaks of one allocator."
  },
  {
   "property": "C02",
   "status": "proved",
   "theorems": [
    "Verif.Arena.reorder_spec"
   ],
   "note": ""
  },
  {
   "property": "C03",
   "status": "partial",
   "theorems": [
    "Verif.Dom.remove_spec",
    "Verif.Dom.append_spec",
    "Verif.Dom.insertBefore_spec",
    "Verif.Dom.insertAfter_spec",
    "Verif.Dom.after_spec",
    "Verif.Dom.replaceWith_spec",
    "Verif.Dom.flatten_spec",
    "Verif.Dom.item_spec",
    "Verif.Dom.appendChild_spec_partial",
    "Verif.Dom.appendChild_iff",
    "Verif.Dom.replaceChild_spec_partial",
    "Verif.Dom.insert_spec_partial",
    "Verif.Dom.history_spec",
    "Verif.Dom.sortChildren_iff",
    "Verif.Dom.replaceChildren_iff",
    "Verif.Dom.empty_iff",
    "Verif.Dom.before_violated",
    "Verif.Dom.insertSelf_violated",
    "Verif.Dom.setLocalName_violated",
    "Verif.Dom.sortChildren_violated",
    "Verif.Dom.empty_violated",
    "Verif.Dom.setTextContent_iff"
   ],
   "note": "Proved for remove, append, insert_before/after, after, replace_with, flatten and all histories of them; for append_child, replace_children, sort_child_elements and empty the exact condition is proved; before never leaves consistent links."
  },
  {
   "property": "C04",
   "status": "partial",
   "theorems": [
    "Verif.Dom.retain_iff",
    "Verif.Dom.retain_spec_partial",
    "Verif.Dom.retain_violated"
   ],
   "note": "retain_children is right exactly when the dropped children come first (retain_iff); otherwise the links break (retain_violated)."
  },
  {
   "property": "C05",
   "status": "proved",
   "theorems": [
    "Verif.Dom.both_ends_spec",
    "Verif.Dom.edit_loop_spec",
    "Verif.Dom.remove_loop_spec"
   ],
   "note": ""
  },
  {
   "property": "C06",
   "status": "proved",
   "theorems": [
    "Verif.Bfs.bfs_spec",
    "Verif.Bfs.find_spec"
   ],
   "note": ""
  },
  {
   "property": "C07",
   "status": "partial",
   "theorems": [
    "Verif.Attrs.set_spec",
    "Verif.Attrs.set_get",
    "Verif.Attrs.set_at",
    "Verif.Attrs.set_others",
    "Verif.Attrs.set_length",
    "Verif.Attrs.remove_spec",
    "Verif.Attrs.history_distinct",
    "Verif.Attrs.recognised_coherent",
    "Verif.Attrs.get_partial",
    "Verif.Attrs.getMut_spec",
    "Verif.Attrs.remove_partial",
    "Verif.Attrs.get_violated",
    "Verif.Attrs.getNs_spec",
    "Verif.Attrs.getLocal_spec",
    "Verif.Attrs.retain_spec"
   ],
   "note": "Setting is proved outright. Reading and removing go by the id variant, so the map laws need names recognised for the same element (recognised_coherent shows that this is the normal case); get_violated is the counterexample otherwise."
  },
  {
   "property": "C08",
   "status": "partial",
   "theorems": [
    "Verif.Attrs.cmp_eq",
    "Verif.Attrs.cmp_total_preorder",
    "Verif.Attrs.sort_perm",
    "Verif.Attrs.nsClass_eq",
    "Verif.Attrs.sort_ordered",
    "Verif.Attrs.sort_idempotent",
    "Verif.Attrs.sort_canonical_partial",
    "Verif.Attrs.sort_canonical_violated",
    "Verif.Attrs.part_eq"
   ],
   "note": "Everything proved; independence of the initial order needs attributes whose canonical spellings differ."
  },
  {
   "property": "C09",
   "status": "proved",
   "theorems": [
    "Verif.ClassList.contains_spec",
    "Verif.ClassList.length_spec",
    "Verif.ClassList.add_spec",
    "Verif.ClassList.remove_spec",
    "Verif.ClassList.toggle_spec",
    "Verif.ClassList.toggle_twice",
    "Verif.ClassList.replace_spec",
    "Verif.ClassList.retain_spec",
    "Verif.ClassList.history_spec",
    "Verif.ClassList.add_raw_violated"
   ],
   "note": "For elements whose class attribute was parsed; add_raw_violated shows what happens to an unparsable one."
  },
  {
   "property": "C10",
   "status": "proved",
   "theorems": [
    "Verif.Escape.escape_round_trip",
    "Verif.Escape.escape_appends",
    "Verif.Escape.escape_no_markup",
    "Verif.Escape.escape_no_delimiter",
    "Verif.Escape.escape_ampersand"
   ],
   "note": ""
  },
  {
   "property": "C11",
   "status": "partial",
   "theorems": [
    "Verif.Xml.original_partial",
    "Verif.Xml.settled_partial",
    "Verif.Xml.words_partial",
    "Verif.Xml.adjacent_violated",
    "Verif.Xml.between_violated",
    "Verif.Xml.noBreak_violated",
    "Verif.Xml.leak_violated",
    "Verif.Xml.unleak_violated",
    "Verif.Xml.pretty_violated",
    "Verif.Xml.value_violated",
    "Verif.Xml.carriage_violated",
    "Verif.Xml.unreadable_violated",
    "Verif.Xml.instruction_violated"
   ],
   "note": "For all documents of writable characters with one root element: exact with the original white space, exact for texts already in the form the treatment produces, and the same elements, attributes and words for all options. Each violated theorem shows a loss that keeps this from being the identity."
  },
  {
   "property": "C12",
   "status": "proved",
   "theorems": [
    "Verif.IdGen.ids_terminate",
    "Verif.IdGen.ids_distinct",
    "Verif.IdGen.ids_valid",
    "Verif.IdGen.ids_avoid_reserved",
    "Verif.IdGen.ids_length_monotone",
    "Verif.IdGen.ids_disjoint",
    "Verif.IdGen.ids_none_skipped"
   ],
   "note": ""
  },
  {
   "property": "C13",
   "status": "partial",
   "theorems": [
    "Verif.CleanupIds.follow_partial",
    "Verif.CleanupIds.ends",
    "Verif.CleanupIds.left_alone",
    "Verif.CleanupIds.names_iff",
    "Verif.CleanupIds.preserved_iff",
    "Verif.CleanupIds.mixed_violated",
    "Verif.CleanupIds.not_minified_violated",
    "Verif.CleanupIds.digits_violated",
    "Verif.CleanupIds.encoded_violated",
    "Verif.CleanupIds.first_violated",
    "Verif.CleanupIds.raw_violated",
    "Verif.CleanupIds.forced"
   ],
   "note": "follow_partial describes the whole result. Its conditions: minify is on, no id is the percent-encoded form of another, and an attribute with several references has none that is percent-encoded or consists of letters only. Outside of these the property is false, as the violated theorems show; numeric ids and the choice among repeated ids break it as well."
  },
  {
   "property": "C14",
   "status": "partial",
   "theorems": [
    "Verif.PrefixIds.follow_partial",
    "Verif.PrefixIds.collide_iff",
    "Verif.PrefixIds.prefixId_spec",
    "Verif.PrefixIds.prefixReference_spec",
    "Verif.PrefixIds.job_idempotent",
    "Verif.PrefixIds.classes_follow",
    "Verif.PrefixIds.remote_untouched",
    "Verif.PrefixIds.off_unchanged",
    "Verif.PrefixIds.distinct_violated",
    "Verif.PrefixIds.classes_only_violated",
    "Verif.PrefixIds.empty_style_violated",
    "Verif.PrefixIds.whole_document_violated"
   ],
   "note": "Idempotence and untouched addresses hold in full. Different ids stay different except when one is the prefix followed by the other (collide_iff is exact; distinct_violated). References follow when ids are prefixed and no style element is empty; both conditions are needed (classes_only_violated, empty_style_violated)."
  },
  {
   "property": "C15",
   "status": "partial",
   "theorems": [
    "Verif.Jobs.extend_spec",
    "Verif.Jobs.omit_spec",
    "Verif.Jobs.omit_unknown",
    "Verif.Jobs.extend_assoc",
    "Verif.Jobs.extend_idem",
    "Verif.Jobs.extend_none_right",
    "Verif.Jobs.extend_none_left",
    "Verif.Jobs.none_disables",
    "Verif.Jobs.safe_eq_default_with_precheck",
    "Verif.Jobs.resolve_partial",
    "Verif.Jobs.resolve_violated",
    "Verif.Jobs.Svgo.default_order"
   ],
   "note": "All laws proved for Jobs and Extends; the configuration file ignores omit when extends is absent (resolve_violated)."
  },
  {
   "property": "C16",
   "status": "proved",
   "theorems": [
    "Verif.Jobs.run_spec",
    "Verif.Jobs.run_no_root",
    "Verif.Jobs.important_spec",
    "Verif.Jobs.Svgo.default_order"
   ],
   "note": ""
  },
  {
   "property": "C17",
   "status": "partial",
   "theorems": [
    "Verif.Jobs.Svgo.snake_svgoName",
    "Verif.Jobs.Svgo.import_spec",
    "Verif.Jobs.Svgo.import_unknown",
    "Verif.Jobs.Svgo.import_default",
    "Verif.Jobs.Svgo.path_config_partial",
    "Verif.Jobs.Svgo.path_config_violated",
    "Verif.Jobs.Svgo.import_preset_object_violated",
    "Verif.Jobs.Svgo.import_bad_params"
   ],
   "note": "Every entry list is imported exactly; the removeUseless parameter is consumed twice and preset-default given as an object is rejected (both shown)."
  },
  {
   "property": "C18",
   "status": "partial",
   "theorems": [
    "Verif.Parse.step_iff",
    "Verif.Parse.tryParse_spec",
    "Verif.Parse.ascii_safe_partial",
    "Verif.Parse.skipChar_iff",
    "Verif.Parse.read_violated",
    "Verif.Parse.skipChar_violated",
    "Verif.Parse.expectStr_violated"
   ],
   "note": "For each operation the exact condition under which the parser stays between characters without panicking is proved (step_iff), and every program over an ASCII text that does not use skip_char or expect_str in a wrong place is safe (ascii_safe_partial). read, skip_char and expect_str break the property on some inputs."
  },
  {
   "property": "C19",
   "status": "partial",
   "theorems": [
    "Verif.Number.f64_sound",
    "Verif.Number.f64_none",
    "Verif.Number.f64_iff",
    "Verif.Number.f64_clash",
    "Verif.Number.f64_parsed",
    "Verif.Number.f64_violated",
    "Verif.Number.rustFloat_iff"
   ],
   "note": "Whatever is parsed is the longest number of the grammar (f64_sound, every input). Not every number is parsed: f64_iff states exactly when, for texts that do not end with a point; f64_violated gives four numbers that are rejected."
  },
  {
   "property": "C20",
   "status": "partial",
   "theorems": [
    "Verif.Path.halts_iff",
    "Verif.Path.halts_no_close",
    "Verif.Path.parse_mono",
    "Verif.Path.halts_violated",
    "Verif.Path.trailing_violated",
    "Verif.Path.flag_panics"
   ],
   "note": "The parser does not always halt (halts_violated). halts_iff is the exact set of texts on which it runs for ever, for texts that do not end with a comma or a point; halts_no_close covers every text without a close-path letter. flag_panics shows a text on which it panics."
  },
  {
   "property": "C21",
   "status": "partial",
   "theorems": [
    "Verif.Path.format_partial",
    "Verif.Path.short_value",
    "Verif.Path.short_shape",
    "Verif.Path.short_value_violated",
    "Verif.Path.fraction_after_exponent_violated",
    "Verif.Path.implicit_violated",
    "Verif.Path.implicit_silent_violated",
    "Verif.Path.implicit_close_violated"
   ],
   "note": "Proved for every path whose numbers avoid three named situations; each situation is shown to break the property. For numbers alone the condition is exact (short_value, short_value_violated). Numbers are the decimals that ryu finds; that these denote the f64 is not modelled."
  },
  {
   "property": "C22",
   "status": "partial",
   "theorems": [
    "Verif.Path.parse_svg",
    "Verif.Path.parse_sound",
    "Verif.Path.table_iff",
    "Verif.Path.exponent_violated",
    "Verif.Path.comma_violated",
    "Verif.Path.trailing_violated"
   ],
   "note": "Completeness (parse_svg) for the grammar of SVG and soundness (parse_sound) for a grammar with freer separators, both for texts that do not end with a comma or a point. Differences from SVG are shown: an exponent followed by a point is refused, a trailing comma eats characters, white space after a final close-path adds a command."
  },
  {
   "property": "C23",
   "status": "partial",
   "theorems": [
    "Verif.Segment.fromSvg_spec",
    "Verif.Segment.fromSvg_partial",
    "Verif.Segment.fromSvg_none_iff",
    "Verif.Segment.smooth_after_quad_violated",
    "Verif.Segment.smooth_after_cubic_violated",
    "Verif.Segment.closed_by_next_move_violated",
    "Verif.Segment.lone_close_violated",
    "Verif.Segment.tiny_radius_violated",
    "Verif.Segment.empty_arc_violated"
   ],
   "note": "Over the rationals. Holds for data in which no smooth command follows a curve of the other kind, no arc is degenerate and no subpath ends within the tolerance of the next start; each exception is shown to change the drawing. Arcs are compared by their parameters; the conversion of an arc to its centre is not modelled."
  },
  {
   "property": "C24",
   "status": "partial",
   "theorems": [
    "Verif.Segment.toSvg_partial",
    "Verif.Segment.toSvg_letters",
    "Verif.Segment.toSvg_total",
    "Verif.Segment.quad_after_cubic_violated",
    "Verif.Segment.cubic_after_quad_violated",
    "Verif.Segment.smooth_across_move_violated",
    "Verif.Segment.empty_line_violated",
    "Verif.Segment.line_to_start_violated",
    "Verif.Segment.drift_violated"
   ],
   "note": "Proved for exact arithmetic, any estimate of lengths, and segments in which smooth and closing commands are not mistaken (FitsAll); end points are exact, control points within the tolerance that the code grants. The excluded situations are shown to change the drawing, and rounding of relative commands has no bound on its error (drift_violated)."
  },
  {
   "property": "C25",
   "status": "partial",
   "theorems": [
    "Verif.Simplify.closeSegments_fill",
    "Verif.Simplify.removeCloseLine_fill",
    "Verif.Simplify.removeCloseLine_stroke",
    "Verif.Simplify.removeEmpty_spec",
    "Verif.Simplify.removeNoop_partial",
    "Verif.Simplify.vanish_violated",
    "Verif.Simplify.joinNodes_ends",
    "Verif.Simplify.joinNodes_partial",
    "Verif.Simplify.joinNodes_grid",
    "Verif.Simplify.corner_violated",
    "Verif.Simplify.straightCurves_partial",
    "Verif.Simplify.straightCurves_ends",
    "Verif.Simplify.loop_violated",
    "Verif.Simplify.overshoot_violated",
    "Verif.Simplify.closeLine_iff",
    "Verif.Simplify.join_iff",
    "Verif.Simplify.empty_iff",
    "Verif.Simplify.unite_iff",
    "Verif.Simplify.close_iff",
    "Verif.Simplify.noop_partial",
    "Verif.Simplify.dynamic_cap_violated",
    "Verif.Simplify.close_stroke_violated",
    "Verif.Simplify.job_passes",
    "Verif.Simplify.optimize_grid"
   ],
   "note": "Over the rationals; arcs and curves-to-arcs are parameters. Bounds per pass under conditions, with witnesses that without them there is no bound; exact for polygons on a grid through all default passes; each option is on exactly if safe, but for one mistake about line caps."
  },
  {
   "property": "C26",
   "status": "partial",
   "theorems": [
    "Verif.Removal.comments_spec",
    "Verif.Removal.comments_error_iff",
    "Verif.Removal.comments_idem",
    "Verif.Removal.is_iff",
    "Verif.Removal.named_spec",
    "Verif.Removal.metadata_spec",
    "Verif.Removal.title_spec",
    "Verif.Removal.styleElement_spec",
    "Verif.Removal.procInst_spec",
    "Verif.Removal.off_spec",
    "Verif.Removal.desc_spec",
    "Verif.Removal.desc_idem_partial",
    "Verif.Removal.desc_violated",
    "Verif.Removal.byAttr_spec",
    "Verif.Removal.raster_spec",
    "Verif.Removal.raster_iff",
    "Verif.Removal.rasterImage_iff",
    "Verif.Removal.raster_off",
    "Verif.Removal.raster_violated",
    "Verif.Removal.editors_spec",
    "Verif.Removal.editors_sound"
   ],
   "note": "Removal is exact for every job and document. Only the second run of remove_desc may change something (desc_violated); desc_idem_partial says when it does not. Raster images are told by words in the address, which vector images may have too (raster_violated). What remains without the data of editors is still in the namespaces of its prefixes. There is no doctype node in the tree."
  },
  {
   "property": "C27",
   "status": "proved",
   "theorems": [
    "Verif.UnusedNs.exact_spec",
    "Verif.UnusedNs.bound_spec",
    "Verif.UnusedNs.off_spec",
    "Verif.UnusedNs.unused_idem"
   ],
   "note": "Exact set of removed declarations, on top of the tree model."
  },
  {
   "property": "C28",
   "status": "partial",
   "theorems": [
    "Verif.MoveAttrs.exitGroup_partial",
    "Verif.MoveAttrs.toGroup_partial",
    "Verif.MoveAttrs.toElems_partial",
    "Verif.MoveAttrs.toElems_reuse_partial",
    "Verif.MoveAttrs.toElems_fuel",
    "Verif.MoveAttrs.group_style_violated",
    "Verif.MoveAttrs.inherit_violated",
    "Verif.MoveAttrs.relative_violated",
    "Verif.MoveAttrs.hidden_transform_violated",
    "Verif.MoveAttrs.unreadable_transform_violated",
    "Verif.MoveAttrs.reuse_violated",
    "Verif.MoveAttrs.child_style_violated",
    "Verif.MoveAttrs.group_hidden_violated",
    "Verif.MoveAttrs.child_inherit_violated"
   ],
   "note": "Whole runs over all trees. Conditions: groups carry no competing style declarations, moved values are absolute, transforms are readable and not in style; the violated theorems show that each condition is needed. Values that are relative to another property are not modelled. That a transform is not moved to a group with a filter, clip path or mask is only checked by examples."
  },
  {
   "property": "C29",
   "status": "partial",
   "theorems": [
    "Verif.Actions.readBack_iff",
    "Verif.Actions.history_iff",
    "Verif.Actions.fromState_sound",
    "Verif.Actions.insert_violated",
    "Verif.Actions.history_violated"
   ],
   "note": "Every action but Insert is read back (exact). A stored Insert is refused, and with it the whole history. Writing and reading of a single number (std) is a hypothesis."
  },
  {
   "property": "C30",
   "status": "proved",
   "theorems": [
    "Verif.Actions.selection_survives",
    "Verif.Actions.no_selection",
    "Verif.Actions.names_unique",
    "Verif.Actions.selectedNodes_spec"
   ],
   "note": "For arenas of at most 2^31 nodes, as ids are stored as 32-bit integers."
  },
  {
   "property": "C31",
   "status": "proved",
   "theorems": [
    "Verif.ListOf.integers",
    "Verif.ListOf.write_parse",
    "Verif.ListOf.list_iff",
    "Verif.ListOf.rounds_enough",
    "Verif.ListOf.wrong_item_violated",
    "Verif.ListOf.comma_space_violated",
    "Verif.ListOf.quoted_item",
    "Verif.ListOf.integers32"
   ],
   "note": "integers is the property. write_parse is the round trip for any value type, list_iff the exact set of texts accepted (texts without quotation marks). Unexpected readings of texts that are not written by the printer are shown by the violated theorems."
  },
  {
   "property": "C32",
   "status": "proved",
   "theorems": [
    "Verif.LineCol.position_correct",
    "Verif.LineCol.position_round_trip",
    "Verif.LineCol.position_monotone"
   ],
   "note": ""
  },
  {
   "property": "C33",
   "status": "proved",
   "theorems": [
    "Verif.Names.new_uri_value",
    "Verif.Names.new_none",
    "Verif.Names.prefix_eq_iff",
    "Verif.Names.id_eq_expanded",
    "Verif.Names.id_eq_refl",
    "Verif.Names.id_eq_symm",
    "Verif.Names.id_eq_trans",
    "Verif.Names.parseAttrId_expanded",
    "Verif.Names.parseAttrId_eq",
    "Verif.Names.parseAttrId_spelling",
    "Verif.Names.attrNew_name"
   ],
   "note": ""
  },
  {
   "property": "C34",
   "status": "partial",
   "theorems": [
    "Verif.Parse.expectIdent_spec",
    "Verif.Parse.expectIdent_panic_iff",
    "Verif.Parse.nameStart_iff",
    "Verif.Parse.nameChar_iff"
   ],
   "note": "Proved for names that start with an ASCII character; otherwise expect_ident panics (expectIdent_panic_iff). The name characters are those of XML except U+00D6 (nameStart_iff)."
  },
  {
   "property": "C35",
   "status": "partial",
   "theorems": [
    "Verif.Number.i64_spec",
    "Verif.Number.i32_partial",
    "Verif.Number.i32_violated"
   ],
   "note": "Proved for 64 bits. The 32 bit parser wraps around instead of failing (i32_violated); it is right exactly for values that fit (i32_partial)."
  },
  {
   "property": "C36",
   "status": "proved",
   "theorems": [
    "Verif.Parse.expectChar_spec",
    "Verif.Parse.expectDone_spec",
    "Verif.Parse.expectStr_spec",
    "Verif.Parse.expectIdentMatching_spec",
    "Verif.Parse.whitespace_iff"
   ],
   "note": "expect_ident_matching for identifiers that start with a one-byte character (else it panics, C34)."
  },
  {
   "property": "C37",
   "status": "partial",
   "theorems": [
    "Verif.PrefixIds.generate_spec",
    "Verif.PrefixIds.generate_violated"
   ],
   "note": "The first component of the path is used instead of the file name, so all files below one directory share a prefix (generate_violated)."
  },
  {
   "property": "C38",
   "status": "proved",
   "theorems": [
    "Verif.Actions.parseCommands_iff",
    "Verif.Actions.parseCommands_f32_iff",
    "Verif.Actions.command_not_number"
   ],
   "note": "Exact characterisation of the accepted lists, also with the model of the number parser of the code."
  },
  {
   "property": "C39",
   "status": "partial",
   "theorems": [
    "Verif.Actions.opened",
    "Verif.Actions.history_kept",
    "Verif.Actions.saved_valid",
    "Verif.Actions.selects",
    "Verif.Actions.selection_kept_iff",
    "Verif.Actions.selection_kept_partial",
    "Verif.Actions.reselect_violated",
    "Verif.Actions.commandLine_spec",
    "Verif.Actions.commandLine_violated",
    "Verif.Actions.new_iff"
   ],
   "note": "The history is always kept by Actor::snapshot. The selection is kept exactly if it was never empty before (reselect_violated). The command line writes the state only if something was selected in the same run; otherwise it drops the former history (commandLine_spec is exact)."
  },
  {
   "property": "C40",
   "status": "partial",
   "theorems": [
    "Verif.Actions.class_spec",
    "Verif.Actions.class_partial",
    "Verif.Actions.class_untouched",
    "Verif.Actions.class_violated"
   ],
   "note": "Holds if no element is selected twice; select_more can select an element twice, and then nothing is toggled (class_violated)."
  },
  {
   "property": "C41",
   "status": "partial",
   "theorems": [
    "Verif.Build.parse_spec_partial",
    "Verif.Build.parse_limit",
    "Verif.Build.parse_children",
    "Verif.Build.style_links_violated",
    "Verif.Build.reorder_ends_iff"
   ],
   "note": "Holds for documents without style sheets. A style sheet is attached twice and so becomes its own sibling: it cannot be removed, and renumbering ends exactly if there is none. Iterating over children works in all documents."
  },
  {
   "property": "C42",
   "status": "partial",
   "theorems": [
    "Verif.Namespaces.names_partial",
    "Verif.Namespaces.own_violated",
    "Verif.Namespaces.again_violated",
    "Verif.Namespaces.synonym_violated",
    "Verif.Namespaces.restore_violated",
    "Verif.Namespaces.default_violated",
    "Verif.Namespaces.attribute_violated"
   ],
   "note": "Holds if each prefix and URI is declared once in the document and no element is named with a prefix it declares itself; six kinds of documents outside of this are shown to lose or change a namespace."
  },
  {
   "property": "C43",
   "status": "partial",
   "theorems": [
    "Verif.Cascade.computed_partial",
    "Verif.Cascade.plain_static",
    "Verif.Cascade.unreadable_violated",
    "Verif.Cascade.list_violated",
    "Verif.Cascade.sibling_violated",
    "Verif.Cascade.specificity_violated",
    "Verif.Cascade.static_violated",
    "Verif.Cascade.supports_violated",
    "Verif.Cascade.inline_violated",
    "Verif.Cascade.inherited_violated"
   ],
   "note": "Holds for all elements, ancestors and style sheets in which no selector follows one that does not match within a rule or at-rule, declarations come in order of specificity, only @media and @container are used, and no ancestor has an attribute and a rule for one property. Each condition is shown to be needed by a violated theorem. Selector matching is a parameter."
  },
  {
   "property": "C44",
   "status": "partial",
   "theorems": [
    "Verif.Transform.run_partial",
    "Verif.Transform.toMatrix_spec",
    "Verif.Transform.matrix_shorter",
    "Verif.Transform.toCss_move",
    "Verif.Transform.fromCss_partial",
    "Verif.Transform.css_round_trip",
    "Verif.Transform.shift_violated",
    "Verif.Transform.integer_violated",
    "Verif.Transform.decimals_violated",
    "Verif.Transform.shorts_violated",
    "Verif.Transform.scaleX_violated"
   ],
   "note": "Over real numbers. Holds for all lists and options with convertToShorts unless a matrix shifts by about (1, 1): translate(1 1) is taken for the identity and dropped. The tolerance of factors is that of the options unless the numbers of the matrix have fewer decimals, which loses the size of matrix(1 1 -1 1 0 0). scaleX becomes scale(x 0)."
  },
  {
   "property": "C45",
   "status": "partial",
   "theorems": [
    "Verif.Apply.apply_partial",
    "Verif.Apply.apply_some",
    "Verif.Apply.apply_draws_partial",
    "Verif.Apply.arc_image_iff",
    "Verif.Apply.arc_exists",
    "Verif.Apply.arc_unique",
    "Verif.Apply.draws_exists",
    "Verif.Apply.draws_unique",
    "Verif.Apply.direction_violated",
    "Verif.Apply.swap_violated",
    "Verif.Apply.shear_violated",
    "Verif.Apply.flat_violated",
    "Verif.Apply.small_violated"
   ],
   "note": "Over real numbers. Holds for every matrix without arcs. For arcs it holds for invertible matrices exactly if the signs of a and d differ when orientation is reversed; matrix(0 1 1 0 0 0) and matrix(-1 2 -1 1 0 0) draw arcs the wrong way. Arcs with first radius 0, and small circles that become nearly circles, get NaN."
  },
  {
   "property": "C46",
   "status": "partial",
   "theorems": [
    "Verif.Shapes.straight_partial",
    "Verif.Shapes.round_partial",
    "Verif.Shapes.names_partial",
    "Verif.Shapes.arcs_kept",
    "Verif.Shapes.removed_spec",
    "Verif.Shapes.rect_kept_iff",
    "Verif.Shapes.line_kept_iff",
    "Verif.Shapes.poly_removed_iff",
    "Verif.Shapes.ellipse_circle_partial",
    "Verif.Shapes.ellipse_kept_iff",
    "Verif.Shapes.flat_violated",
    "Verif.Shapes.negative_violated",
    "Verif.Shapes.auto_violated",
    "Verif.Shapes.rounding_violated",
    "Verif.Shapes.start_violated",
    "Verif.Shapes.ellipse_names_violated",
    "Verif.Shapes.children_violated",
    "Verif.Shapes.percent_violated"
   ],
   "note": "Over real numbers. Straight shapes: all lengths and precisions, corners within half a unit. Round shapes: numbers with no more decimals than are kept; otherwise rounding is amplified (0.3 instead of 0.0005 in the witness). Rectangles without width, negative and absent radii, rules for ellipse, children and percentages are shown to be treated wrongly."
  },
  {
   "property": "C47",
   "status": "partial",
   "theorems": [
    "Verif.Empty.text_spec",
    "Verif.Empty.text_letters_partial",
    "Verif.Empty.containers_spec",
    "Verif.Empty.containers_solid_partial",
    "Verif.Empty.containers_again",
    "Verif.Empty.defs_shown",
    "Verif.Empty.defs_targets_partial",
    "Verif.Empty.defs_clean",
    "Verif.Empty.words_violated",
    "Verif.Empty.nested_violated",
    "Verif.Empty.glyph_violated",
    "Verif.Empty.script_violated",
    "Verif.Empty.inherit_violated"
   ],
   "note": "For all documents and options: exactly the empty texts and containers go away, no drawn letter is lost, everything that is not a container stays, what is shown and what can be referred to in definitions stays. Violated for spaces in a tspan, glyphs (outline in the attribute d), scripts and fonts within defs, properties inherited from within defs, and a text around an empty tspan needs a second run. The computed style is a parameter that depends on the element and its ancestors."
  },
  {
   "property": "C48",
   "status": "partial",
   "theorems": [
    "Verif.Collapse.collapse_partial",
    "Verif.Collapse.collapse_clean",
    "Verif.Collapse.collapse_does",
    "Verif.Collapse.animated_kept",
    "Verif.Collapse.switch_kept",
    "Verif.Collapse.opacity_violated",
    "Verif.Collapse.display_violated",
    "Verif.Collapse.animated_violated",
    "Verif.Collapse.panic_violated",
    "Verif.Collapse.meaning_violated",
    "Verif.Collapse.style_violated",
    "Verif.Collapse.fresh_violated",
    "Verif.Collapse.selector_violated",
    "Verif.Collapse.use_violated",
    "Verif.Collapse.again_violated"
   ],
   "note": "The same picture for all documents without animations, stylesheets and elements with opacity or display within each other, whose groups have transforms, inherited properties, effects and attributes without an effect, outside of texts. Each condition is shown to be needed by a violated theorem, one of them a panic. What goes away and what stays is shown for all documents."
  },
  {
   "property": "C49",
   "status": "partial",
   "theorems": [
    "Verif.Values.numbers_near",
    "Verif.Values.fails_iff",
    "Verif.Values.second_run",
    "Verif.Values.either_order",
    "Verif.Values.single_tidy",
    "Verif.Values.presentation_tidy",
    "Verif.Values.list_tidy",
    "Verif.Values.order_kept",
    "Verif.Values.skipped_violated",
    "Verif.Values.lists_only_violated",
    "Verif.Values.twice_violated",
    "Verif.Values.small_violated",
    "Verif.Values.default_px_violated"
   ],
   "note": "Over real numbers. Nearness, failure, the second run and the order of the jobs are proved for all documents and options. Which job rounds what fails: dashes, enable-background, keySplines and the lengths of rx, ry, refX, refY, markerWidth and markerHeight are rounded by neither, single values are rounded by both, so two precisions add up; the option to remove px does nothing; a small view box gets no size."
  },
  {
   "property": "C50",
   "status": "partial",
   "theorems": [
    "Verif.MergePaths.merge_runs",
    "Verif.MergePaths.merge_drawn",
    "Verif.MergePaths.others_kept",
    "Verif.MergePaths.ids_kept",
    "Verif.MergePaths.merge_picture_partial",
    "Verif.MergePaths.stop_needed",
    "Verif.MergePaths.fails_only",
    "Verif.MergePaths.switch_violated",
    "Verif.MergePaths.dynamic_violated",
    "Verif.MergePaths.remote_violated",
    "Verif.MergePaths.computed_violated",
    "Verif.MergePaths.length_violated",
    "Verif.MergePaths.wide_violated",
    "Verif.MergePaths.test_no",
    "Verif.MergePaths.test_total",
    "Verif.MergePaths.merge_picture_test"
   ],
   "note": "What is merged is characterised exactly for all children, and the subpaths drawn with their attributes stay, for any test for intersections. The picture stays if that test finds all pairs that may not be painted at once; the test that the job makes (from path data over segments, arcs and hulls, C23, C62, C63) is proved to do so but for the width of strokes, for path data that the conversion to segments keeps. It changes in a switch, with pathLength, for wide strokes that overlap, for references in rules that apply sometimes or into other documents, and if rules depend on the place among the children."
  },
  {
   "property": "C51",
   "status": "partial",
   "theorems": [
    "Verif.Stroke.apply_picture_partial",
    "Verif.Stroke.others_kept",
    "Verif.Stroke.left_alone",
    "Verif.Stroke.applied",
    "Verif.Stroke.fails_only",
    "Verif.Stroke.rule_violated",
    "Verif.Stroke.inherited_violated",
    "Verif.Stroke.inherited_width_violated",
    "Verif.Stroke.effect_violated",
    "Verif.Stroke.precision_violated",
    "Verif.Stroke.dashes_violated",
    "Verif.Stroke.length_violated",
    "Verif.Stroke.server_violated",
    "Verif.Stroke.remote_violated",
    "Verif.Stroke.twice_violated",
    "Verif.Stroke.dynamic_violated",
    "Verif.Stroke.origin_violated",
    "Verif.Stroke.option_violated",
    "Verif.Stroke.panic_violated"
   ],
   "note": "Outline, stroke and references stay for all paths whose transform, and whose stroke but for its colour and width, come from their own attributes, for any way to draw strokes that goes with similarities. Witnesses show that the picture changes otherwise: widths set by rules, inherited dashes, values that say inherit, pathLength, vector-effect in rules, inherited gradients, references to other documents, the same transform in a rule, rules under conditions, transform-origin. The option for strokes does the opposite of what it says. Numbers are real."
  },
  {
   "property": "C52",
   "status": "partial",
   "theorems": [
    "Verif.Viewport.view_box_outline",
    "Verif.Viewport.off",
    "Verif.Viewport.view_box_partial",
    "Verif.Viewport.symbol_iff",
    "Verif.Viewport.dimensions_outline",
    "Verif.Viewport.dimensions_partial",
    "Verif.Viewport.dimensions_scaled",
    "Verif.Viewport.opposite",
    "Verif.Viewport.symbol_violated",
    "Verif.Viewport.pattern_violated",
    "Verif.Viewport.offset_violated",
    "Verif.Viewport.template_violated",
    "Verif.Viewport.style_violated",
    "Verif.Viewport.nested_violated",
    "Verif.Viewport.ignored_violated"
   ],
   "note": "What is removed is characterised exactly for all documents. The picture stays on every canvas for root elements, for symbols used without a size, and for patterns in user space that begin in the origin; witnesses show that it changes for other symbols (exactly if the instance has another size) and patterns, and if styles give a size. Removing dimensions keeps the picture on a canvas of the same size and centres and scales it on others, but also strips nested svg elements, whose content then grows although the view box matches, and documents whose view box does not parse. Numbers are rational."
  },
  {
   "property": "C53",
   "status": "partial",
   "theorems": [
    "Verif.Unknowns.outline_kept",
    "Verif.Unknowns.conforming_partial",
    "Verif.Unknowns.styles_partial",
    "Verif.Unknowns.attributes_known",
    "Verif.Unknowns.safe_kept",
    "Verif.Unknowns.removed_iff",
    "Verif.Unknowns.defaults_partial",
    "Verif.Unknowns.succeeds_partial",
    "Verif.Unknowns.off_same",
    "Verif.Unknowns.use_violated",
    "Verif.Unknowns.relative_violated",
    "Verif.Unknowns.shorthand_violated",
    "Verif.Unknowns.rule_violated",
    "Verif.Unknowns.selector_violated",
    "Verif.Unknowns.kerning_violated",
    "Verif.Unknowns.origin_violated",
    "Verif.Unknowns.divisor_violated",
    "Verif.Unknowns.percent_violated",
    "Verif.Unknowns.defaults_violated",
    "Verif.Unknowns.property_violated",
    "Verif.Unknowns.link_violated",
    "Verif.Unknowns.errors_violated"
   ],
   "note": "The tables of elements, attributes and defaults are modelled in full. What goes and what stays is shown for all documents; exactly which attributes go for documents without conditional rules. Properties stay where styles are computed as by CSS, selectors ask for names, classes and ids only, and shorthands are not used. Witnesses show changes otherwise: use, relative values, shorthands, attributes against rules, selectors on attributes, kerning, transform-origin, the defaults of divisor and of percentages, mask-type and white-space, text in links; and the job fails if a selector cannot be read."
  },
  {
   "property": "C54",
   "status": "partial",
   "theorems": [
    "Verif.Retain.empty_removed",
    "Verif.Retain.empty_styles",
    "Verif.Retain.empty_conditions",
    "Verif.Retain.empty_meaning_partial",
    "Verif.Retain.group_removed",
    "Verif.Retain.group_styles_partial",
    "Verif.Retain.deprecated_removed",
    "Verif.Retain.deprecated_selectors_partial",
    "Verif.Retain.deprecated_styles_partial",
    "Verif.Retain.deprecated_language_partial",
    "Verif.Retain.empty_language_violated",
    "Verif.Retain.empty_namespace_violated",
    "Verif.Retain.empty_set_violated",
    "Verif.Retain.empty_values_violated",
    "Verif.Retain.empty_selector_violated",
    "Verif.Retain.group_origin_violated",
    "Verif.Retain.group_inherit_violated",
    "Verif.Retain.deprecated_language_violated",
    "Verif.Retain.deprecated_not_violated",
    "Verif.Retain.deprecated_case_violated",
    "Verif.Retain.deprecated_prefix_violated"
   ],
   "note": "What each job removes is characterised exactly for all documents. Properties and conditions stay for empty attributes; languages, namespaces and animations only if none of their attributes is empty. Groups keep all properties but vector-effect and transform-origin, of which the second matters for the group itself. Deprecated attributes: selectors are met as before unless they use :not on attributes, names with upper case, other prefixes for XML or any prefix; the language stays only if lang and xml:lang agree. Witnesses show the changes otherwise."
  },
  {
   "property": "C55",
   "status": "partial",
   "theorems": [
    "Verif.Unpainted.succeeds",
    "Verif.Unpainted.picture_partial",
    "Verif.Unpainted.none_partial",
    "Verif.Unpainted.others_kept",
    "Verif.Unpainted.skips",
    "Verif.Unpainted.useless_gone",
    "Verif.Unpainted.style_violated",
    "Verif.Unpainted.fill_style_violated",
    "Verif.Unpainted.marker_violated",
    "Verif.Unpainted.marker_width_violated",
    "Verif.Unpainted.marker_shorthand_violated",
    "Verif.Unpainted.nested_violated",
    "Verif.Unpainted.animation_violated",
    "Verif.Unpainted.none_violated"
   ],
   "note": "Fills, strokes and all other properties stay for all shapes that are not within a shape and whose own style says nothing about fills and strokes; markers stay if there are none or marker-end is an attribute and the width is not zero. What is left alone and what goes is shown for all documents. Witnesses show changes otherwise: styles that win over the attributes, marker-start and marker-mid, widths of zero, the shorthand marker, content of shapes, animations; and removeNone removes shapes that are drawn."
  },
  {
   "property": "C56",
   "status": "partial",
   "theorems": [
    "Verif.Hidden.nothing_new",
    "Verif.Hidden.succeeds_partial",
    "Verif.Hidden.shown_kept_partial",
    "Verif.Hidden.picture_kept_partial",
    "Verif.Hidden.targets_kept_partial",
    "Verif.Hidden.careful_partial",
    "Verif.Hidden.transparent_gone",
    "Verif.Hidden.flat_gone",
    "Verif.Hidden.hidden_gone",
    "Verif.Hidden.unreferenced_gone",
    "Verif.Hidden.off_kept",
    "Verif.Hidden.order_partial",
    "Verif.Hidden.panic_violated",
    "Verif.Hidden.bytes_violated",
    "Verif.Hidden.media_violated",
    "Verif.Hidden.visible_violated",
    "Verif.Hidden.gradient_violated",
    "Verif.Hidden.defs_violated",
    "Verif.Hidden.text_path_violated",
    "Verif.Hidden.clip_violated",
    "Verif.Hidden.used_violated",
    "Verif.Hidden.template_violated",
    "Verif.Hidden.marker_violated",
    "Verif.Hidden.sheet_violated",
    "Verif.Hidden.switch_violated",
    "Verif.Hidden.order_violated"
   ],
   "note": "What goes and that nothing is added is shown for all documents and styles. What is rendered and visible stays, and so do targets of references that are not hidden themselves, if styles are computed as by CSS, visibility is said by attributes only, every defs is in plain sight and no path directly in a defs has one command; without style sheets and style attributes the styles are shown to be right. Witnesses show changes otherwise: rules under conditions, visibility in styles, gradients and templates that are hidden themselves, references other than use, use in clipping paths, used content of transparent groups, markers of used paths, style sheets in transparent groups, switch, and nested defs, whose result varies from run to run; and an empty link of a use is a panic."
  },
  {
   "property": "C57",
   "status": "partial",
   "theorems": [
    "Verif.Merge.rules_kept_partial",
    "Verif.Merge.others_kept",
    "Verif.Merge.single",
    "Verif.Merge.fixed",
    "Verif.Merge.again",
    "Verif.Merge.off",
    "Verif.Merge.two_merged",
    "Verif.Merge.import_violated",
    "Verif.Merge.media_import_violated",
    "Verif.Merge.syntax_violated",
    "Verif.Merge.type_violated",
    "Verif.Merge.foreign_violated",
    "Verif.Merge.media_violated",
    "Verif.Merge.nested_violated",
    "Verif.Merge.nested_media_violated"
   ],
   "note": "That nothing else changes, that at most one style element is left and that a second run changes nothing (if no element has two media attributes, which XML forbids) is shown for all documents. The rules that count stay, with their order and media queries, if every CSS style element is read completely by the parser, has its type in lower case and a media query that can be read, is not in a foreignObject, and only the first one begins with rules such as @import. Witnesses show that each of these conditions is needed."
  },
  {
   "property": "C58",
   "status": "partial",
   "theorems": [
    "Verif.Inline.values_kept_partial",
    "Verif.Inline.all_inlined_partial",
    "Verif.Inline.elements_kept",
    "Verif.Inline.attrs_kept",
    "Verif.Inline.referenced_kept",
    "Verif.Inline.selectors_kept",
    "Verif.Inline.off",
    "Verif.Inline.specificity_violated",
    "Verif.Inline.class_violated",
    "Verif.Inline.class_attr_violated",
    "Verif.Inline.attr_violated",
    "Verif.Inline.media_attr_violated",
    "Verif.Inline.media_rule_violated",
    "Verif.Inline.two_sheets_violated",
    "Verif.Inline.nested_violated",
    "Verif.Inline.style_attr_violated",
    "Verif.Inline.named_media_violated",
    "Verif.Inline.width_violated"
   ],
   "note": "Values stay for all documents if all rules are inlined, or if those that stay do not declare the same properties and do not ask for classes, ids and attributes that go; style elements must have no media attribute, no named media queries and readable style attributes. What goes and what is left alone is shown for all documents. Selectors are matched by a parameter that has to be right; pseudo-classes are taken to depend on the structure only. Witnesses show that values change otherwise."
  },
  {
   "property": "C59",
   "status": "partial",
   "theorems": [
    "Verif.Minify.values_kept_partial",
    "Verif.Minify.fails_iff",
    "Verif.Minify.elements_kept",
    "Verif.Minify.selectors_iff",
    "Verif.Minify.scripts_kept",
    "Verif.Minify.panic_violated",
    "Verif.Minify.foreign_violated",
    "Verif.Minify.nested_violated",
    "Verif.Minify.style_selector_violated"
   ],
   "note": "Values stay for all documents whose selectors are not empty, where nested rules do not ask for what their parent does not match, no selector asks for the style attribute, and elements that are not of SVG have no name, id or class of their own that a selector asks for. When the job fails, which selectors stay and what else stays is shown exactly. Violated: a style attribute that does not parse is a panic; elements outside of the SVG namespace do not count as users; a rule with nested rules loses its selectors; removing an empty style attribute changes what [style] matches. Minification by lightningcss is a parameter that has to be right."
  },
  {
   "property": "C60",
   "status": "partial",
   "theorems": [
    "Verif.SortDefs.kept",
    "Verif.SortDefs.arranged_partial",
    "Verif.SortDefs.unique",
    "Verif.SortDefs.again_partial",
    "Verif.SortDefs.predictable",
    "Verif.SortDefs.off",
    "Verif.SortDefs.again_violated",
    "Verif.SortDefs.panic_violated",
    "Verif.SortDefs.definitions_lost_violated",
    "Verif.SortDefs.desc_violated",
    "Verif.SortDefs.len_written"
   ],
   "note": "The order is shown exactly for defs elements with at most 20 child nodes (which the standard library sorts by insertion) or with elements only, and that nothing is lost for all. Violated: comments and text change places with every run; with more child nodes the comparison is not an order and the standard library may panic; the first child keeps its previous sibling, so that removing it later, as RemoveDesc does, loses all other definitions instead."
  },
  {
   "property": "C61",
   "status": "partial",
   "theorems": [
    "Verif.CleanAttrs.words_kept",
    "Verif.CleanAttrs.list_kept",
    "Verif.CleanAttrs.joined",
    "Verif.CleanAttrs.off",
    "Verif.CleanAttrs.again",
    "Verif.CleanAttrs.glyph_violated",
    "Verif.CleanAttrs.selector_violated",
    "Verif.CleanAttrs.handler_violated",
    "Verif.CleanAttrs.result_violated",
    "Verif.CleanAttrs.white_iff"
   ],
   "note": "What changes, what stays and that the job is idempotent is shown for all documents and options; attributes that are read as lists of words are read the same. Violated for attributes in which whitespace has a meaning: the glyph of a space in SVG fonts, values asked for by selectors, comments in event handlers, names of filter results."
  },
  {
   "property": "C62",
   "status": "partial",
   "theorems": [
    "Verif.Gjk.intersects_total",
    "Verif.Gjk.intersects_no",
    "Verif.Gjk.intersects_no_real",
    "Verif.Gjk.intersects_yes",
    "Verif.Gjk.intersects_empty",
    "Verif.Gjk.crossing_found",
    "Verif.Gjk.overlap_found",
    "Verif.Gjk.ArcR.covered",
    "Verif.Gjk.symmetric_violated",
    "Verif.Gjk.same_violated",
    "Verif.Gjk.outlines_violated"
   ],
   "note": "Shown for all paths over any ordered field, arcs over the real numbers, with exact arithmetic instead of f64: an answer without panic, no means that a line runs between, crossings and overlaps are found, yes means that hulls meet. Giving up after 10,000 rounds is excluded for subpaths whose numbers of control points have a product of at most 10,000. Arcs are taken to begin where the piece before ends. Not so: the answer depends on the order of paths that touch, a line along an axis does not intersect itself, and yes is also said of outlines without a common point."
  },
  {
   "property": "C63",
   "status": "partial",
   "theorems": [
    "Verif.ArcTo.fromArcTo_none_iff",
    "Verif.ArcTo.fromArcTo_draws",
    "Verif.ArcTo.draws_unique",
    "Verif.ArcTo.fromArcTo_unique",
    "Verif.ArcTo.fromArcBy_draws",
    "Verif.ArcTo.toArcTo_draws",
    "Verif.ArcTo.toArcTo_fromArcTo",
    "Verif.ArcTo.toArcTo_radii",
    "Verif.ArcTo.toArcTo_half",
    "Verif.ArcTo.toArcTo_none_iff",
    "Verif.ArcTo.reverse_points",
    "Verif.ArcTo.clamp_points",
    "Verif.ArcTo.subdivide_points",
    "Verif.ArcTo.toArcTo_ends_violated",
    "Verif.ArcTo.toArcTo_tolerance_violated",
    "Verif.ArcTo.gcd_spec"
   ],
   "note": "Reading arc commands is proved to give the one arc that SVG describes. Writing is proved to keep all points unless the arc is nearly half of an ellipse; there it may not end (exactly characterised) and may move points by far more than the tolerance (witness). Arithmetic is exact: rounding of f64 is not modelled."
  },
  {
   "property": "C64",
   "status": "partial",
   "theorems": [
    "Verif.Canvas.go_apart",
    "Verif.Canvas.stay_seen",
    "Verif.Canvas.fate_total",
    "Verif.Canvas.run_shown_partial",
    "Verif.Canvas.run_still",
    "Verif.Canvas.run_unknown",
    "Verif.Canvas.run_total",
    "Verif.Canvas.beyond_go",
    "Verif.Canvas.seen_stays",
    "Verif.Canvas.stroke_violated",
    "Verif.Canvas.viewport_violated",
    "Verif.Canvas.use_violated",
    "Verif.Canvas.close_violated"
   ],
   "note": "Shown for all documents whose path data the conversion to segments keeps (C23), with exact arithmetic: what filling may paint inside of the view box is the same; all else stays; no panic; paths beyond a side go. Violated for strokes, for what is seen outside of the view box, for paths that are used elsewhere, and for the ends of lines."
  },
  {
   "property": "C65",
   "status": "partial",
   "theorems": [
    "Verif.Xlink.run_kept_partial",
    "Verif.Xlink.run_total_iff",
    "Verif.Xlink.foreign_kept",
    "Verif.Xlink.foreign_gone",
    "Verif.Xlink.dangling_iff",
    "Verif.Xlink.foreign_violated",
    "Verif.Xlink.chance_violated",
    "Verif.Xlink.dangling_violated",
    "Verif.Xlink.legacy_violated",
    "Verif.Xlink.title_violated",
    "Verif.Xlink.panic_violated"
   ],
   "note": "Links, places and tooltips of every element are kept and the attributes that stay are characterised; the claims about other attributes and well-formedness are refuted, with exact conditions."
  },
  {
   "property": "C66",
   "status": "partial",
   "theorems": [
    "Verif.Walk.walk_written",
    "Verif.Walk.walk_else",
    "Verif.Walk.walk_same",
    "Verif.Walk.walk_fails",
    "Verif.Walk.walk_nothing",
    "Verif.Walk.walk_goes_on",
    "Verif.Walk.inplace_violated",
    "Verif.Walk.within_violated",
    "Verif.Walk.several_violated",
    "Verif.Walk.torn_violated",
    "Verif.Walk.dot_violated",
    "Verif.Walk.extension_violated"
   ],
   "note": "For one input path and an output that is the input or apart from it: every result arrives, nothing else changes, whatever the schedule. Refuted for several inputs, outputs within the input, the flag without value and errors while writing."
  },
  {
   "property": "C67",
   "status": "partial",
   "theorems": [
    "Verif.Select.select_order",
    "Verif.Select.select_nodup",
    "Verif.Select.select_partial",
    "Verif.Select.naive_partial",
    "Verif.Select.name_iff",
    "Verif.Select.attr_iff",
    "Verif.Select.empty_iff",
    "Verif.Select.link_iff",
    "Verif.Select.camel_violated",
    "Verif.Select.attr_camel_violated",
    "Verif.Select.prefix_violated",
    "Verif.Select.empty_violated",
    "Verif.Select.nth_violated",
    "Verif.Select.scope_violated",
    "Verif.Select.value_violated",
    "Verif.Select.case_violated",
    "Verif.Select.link_violated",
    "Verif.Select.nth_cache_violated",
    "Verif.Select.class_violated"
   ],
   "note": "Order, and that no element is given twice, for all selectors. Which elements are given is that of CSS for all documents whose values are written as they are and all selectors of names in lower case, ids, classes, attributes without a namespace, the root, first and last children, with combinators, :not and :is; other places only if addresses are not used twice. Exactly what names, attributes, :empty and :link give. Violated for names with upper case, places, :scope, *| attributes, comments in empty elements, xlink:href."
  },
  {
   "property": "C68",
   "status": "partial",
   "theorems": [
    "Verif.StyleAttr.attrs_iff",
    "Verif.StyleAttr.style_iff",
    "Verif.StyleAttr.unstyled_same",
    "Verif.StyleAttr.distinct_kept",
    "Verif.StyleAttr.outline_kept",
    "Verif.StyleAttr.everywhere",
    "Verif.StyleAttr.table_presents",
    "Verif.StyleAttr.untouched_kept",
    "Verif.StyleAttr.values_kept_partial",
    "Verif.StyleAttr.sheet_violated",
    "Verif.StyleAttr.important_violated",
    "Verif.StyleAttr.shorthand_violated",
    "Verif.StyleAttr.html_violated",
    "Verif.StyleAttr.gradient_violated",
    "Verif.StyleAttr.retained_violated",
    "Verif.StyleAttr.selector_violated"
   ],
   "note": "Exactly which attributes and declarations are there afterwards, for every element. Values are kept for properties that no converted declaration sets, and for presentation attributes of SVG elements if all declarations of the property are converted and style sheets do not set it. Violated for style sheets, shorthands, elements of HTML, gradients, declarations that stay, and selectors with [style]."
  },
  {
   "property": "C69",
   "status": "partial",
   "theorems": [
    "Verif.RemoveAttrs.removed_iff",
    "Verif.RemoveAttrs.error_iff",
    "Verif.RemoveAttrs.run_exact",
    "Verif.RemoveAttrs.run_error",
    "Verif.RemoveAttrs.parts_unique",
    "Verif.RemoveAttrs.finds_one",
    "Verif.RemoveAttrs.finds_many",
    "Verif.RemoveAttrs.documented_partial",
    "Verif.RemoveAttrs.omission_violated",
    "Verif.RemoveAttrs.alternatives_violated",
    "Verif.RemoveAttrs.preserve_violated"
   ],
   "note": "Exactly which attributes are removed, for all patterns, separators and documents, and exactly when there is an error. This is what the documentation says if no part is empty or has alternatives outside of parentheses; violated for those, and for currentColor in other attributes than fill and stroke."
  },
  {
   "property": "C70",
   "status": "partial",
   "theorems": [
    "Verif.Background.element_fates",
    "Verif.Background.fate_unique",
    "Verif.Background.fates_unique",
    "Verif.Background.run_exact",
    "Verif.Background.run_else",
    "Verif.Background.run_twice",
    "Verif.Background.counts_partial",
    "Verif.Background.style_violated",
    "Verif.Background.offset_violated"
   ],
   "note": "Exactly what becomes of every attribute of every document, that nothing else changes and that a second run changes nothing. With a filter the background that counts stays the same if no style attribute asks for a new one and none fits on svg, mask or pattern; violated for style attributes and for regions that begin somewhere else."
  },
  {
   "property": "C71",
   "status": "partial",
   "theorems": [
    "Verif.Colors.run_exact",
    "Verif.Colors.run_same",
    "Verif.Colors.said_current",
    "Verif.Colors.uses_outer",
    "Verif.Colors.mask_exact",
    "Verif.Colors.sheet_violated",
    "Verif.Colors.fallback_violated",
    "Verif.Colors.mask_violated"
   ],
   "note": "Exactly which colours are converted, for all documents; every colour that an element outside of masks sets is then that of the text around the document; the default changes nothing. Violated: colours of style sheets and colours to fall back to stay, and masks can change by the colour that they inherit."
  },
  {
   "property": "C72",
   "status": "partial",
   "theorems": [
    "Verif.Scripts.run_safe",
    "Verif.Scripts.run_kept_partial",
    "Verif.Scripts.run_off",
    "Verif.Scripts.run_clean",
    "Verif.Scripts.run_twice",
    "Verif.Scripts.search_after",
    "Verif.Scripts.dissolve_links",
    "Verif.Scripts.lost_violated",
    "Verif.Scripts.text_violated",
    "Verif.Scripts.html_violated",
    "Verif.Scripts.event_violated",
    "Verif.Scripts.events_missing",
    "Verif.Scripts.url_violated",
    "Verif.Scripts.url_spellings",
    "Verif.Scripts.search_violated"
   ],
   "note": "For all documents: no script element of SVG, attribute of the table of events or `javascript:` link is left, a second run changes nothing, clean documents stay as they are, and the search then finds nothing. All else stays if no link to a script has a text between other things; otherwise things are lost. Scripts of HTML, events not in the table and other spellings of addresses stay."
  },
  {
   "property": "C73",
   "status": "partial",
   "theorems": [
    "Verif.Precheck.accepted_iff",
    "Verif.Precheck.error_first",
    "Verif.Precheck.run_same",
    "Verif.Precheck.run_off",
    "Verif.Precheck.log_violated",
    "Verif.Precheck.internal_violated",
    "Verif.Precheck.external_violated",
    "Verif.Precheck.missed_violated"
   ],
   "note": "Exactly which documents are accepted, for all documents; the error is about the first element that is refused; the document is never changed. Violated: the option `failFast` is ignored, references within the document are refused and external ones in `href` are accepted."
  },
  {
   "property": "C74",
   "status": "partial",
   "theorems": [
    "Verif.RootAttrs.addAll_new",
    "Verif.RootAttrs.addAll_plain_partial",
    "Verif.RootAttrs.run_changed",
    "Verif.RootAttrs.classes_added",
    "Verif.RootAttrs.classes_neither",
    "Verif.RootAttrs.prefix_violated",
    "Verif.RootAttrs.twice_violated",
    "Verif.RootAttrs.panic_violated",
    "Verif.RootAttrs.missing_violated",
    "Verif.RootAttrs.replaced_violated",
    "Verif.RootAttrs.order_violated",
    "Verif.RootAttrs.aliased_violated"
   ],
   "note": "Nothing that was there changes, and for names without a prefix exactly the missing ones are added, for all documents and options. Violated: prefixes that are not declared on the root element, names with two colons, elements without classes, `className`."
  },
  {
   "property": "C75",
   "status": "partial",
   "theorems": [
    "Verif.Gradients.run_single",
    "Verif.Gradients.run_off",
    "Verif.Gradients.run_seen_partial",
    "Verif.Gradients.run_none_left",
    "Verif.Gradients.run_lost",
    "Verif.Gradients.color_violated",
    "Verif.Gradients.template_violated",
    "Verif.Gradients.geometry_violated",
    "Verif.Gradients.chain_violated",
    "Verif.Gradients.sheet_violated",
    "Verif.Gradients.declaration_violated",
    "Verif.Gradients.order_violated"
   ],
   "note": "For documents with one `svg` element, what is left and how paints are changed in closed form; every paint looks the same if ids are unique, templates have stops and colours of single stops are found and opaque, and no gradient of one stop is left. The other cases are violations. Missing: no theorem says that the declaration of the prefix xlink stays while it is in use; an edit of the model that always removes it is not noticed."
  },
  {
   "property": "C76",
   "status": "partial",
   "theorems": [
    "Verif.Fit.fit_circle",
    "Verif.Fit.fit_ends",
    "Verif.Fit.fit_iff",
    "Verif.Fit.fit_shorter",
    "Verif.Fit.fit_middle_partial",
    "Verif.Fit.fit_same",
    "Verif.Fit.fit_near_partial",
    "Verif.Fit.arcCurves_alike",
    "Verif.Fit.turn_violated",
    "Verif.Fit.loop_violated",
    "Verif.Fit.half_violated"
   ],
   "note": "Exactly which curves become arcs, and which arcs; the ends stay; the arc goes through the middle of the curve if the chord is seen in an obtuse angle from there; a bound for the distance from the circle of all of the curve. That the arc looks like the curve is violated for curves of more than half of a circle, loops, and half of the half circles."
  },
  {
   "property": "C77",
   "status": "partial",
   "theorems": [
    "Verif.Curves.subdivide_along",
    "Verif.Curves.reverse_along",
    "Verif.Curves.newQuad_curve",
    "Verif.Curves.clampT_along",
    "Verif.Curves.clampT_end",
    "Verif.Curves.tAt_sound",
    "Verif.Curves.tAt_mono",
    "Verif.Curves.tAt_seed",
    "Verif.Curves.tAt_straight",
    "Verif.Curves.subdivideAt_along",
    "Verif.Curves.clampAt_along",
    "Verif.Curves.chordDist2_least",
    "Verif.Curves.coords_points",
    "Verif.Curves.coords_near",
    "Verif.Curves.coords_closed_violated",
    "Verif.Curves.coords_len_violated",
    "Verif.Curves.tAt_short_violated"
   ],
   "note": "Parts, halves and reversals of curves run exactly along the curve; places that are found are right; the ends, quarters and all points of lines are found; the coordinates are exactly known, with a bound for the distance of the curve from the line through them. That each point of a curve is found is proved only for these; short lines violate it, closed curves violate that the coordinates follow the curve, and the announced number of coordinates is wrong."
  },
  {
   "property": "C78",
   "status": "partial",
   "theorems": [
    "Verif.Arcs.tAt_sound",
    "Verif.Arcs.tAt_complete",
    "Verif.Arcs.tAt_turn",
    "Verif.Arcs.subdivideAt_along",
    "Verif.Arcs.clampAt_along",
    "Verif.Arcs.length_circle",
    "Verif.Arcs.length_between",
    "Verif.Arcs.tangent_dir",
    "Verif.Arcs.toCurve_points",
    "Verif.Arcs.coords_points",
    "Verif.Arcs.coords_near",
    "Verif.Arcs.coords_start_violated",
    "Verif.Arcs.coords_len_violated",
    "Verif.Arcs.length_reverse_violated",
    "Verif.Arcs.toCurve_small_violated",
    "Verif.Arcs.tAt_tolerance_violated"
   ],
   "note": "Places are found exactly, for all points of arcs of up to a turn; parts run along the arc; lengths are exact for circles and bounded for ellipses; tangents have length one and the direction of the arc; coordinates are exactly known, with a bound for the distance of the line through them. Violated: coordinates of arcs that start at one radian, the number of coordinates, lengths of reversed arcs, curves of small arcs, and the tolerance for points beside the arc."
  },
  {
   "property": "C79",
   "status": "partial",
   "theorems": [
    "Verif.Overlay.flatten_points",
    "Verif.Overlay.find_match",
    "Verif.Overlay.find_only",
    "Verif.Overlay.rebuild_covers",
    "Verif.Overlay.booleanOp_covers",
    "Verif.Overlay.combine_area",
    "Verif.Overlay.action_kept",
    "Verif.Overlay.action_area",
    "Verif.Overlay.action_single_iff",
    "Verif.Overlay.rebuild_panics",
    "Verif.Overlay.rebuild_panic_violated",
    "Verif.Overlay.rebuild_same",
    "Verif.Overlay.rebuild_loop_violated",
    "Verif.Overlay.emit_arc",
    "Verif.Overlay.action_transform_violated",
    "Verif.Overlay.action_transform"
   ],
   "note": "Polygons go through points of the paths; edges get the entry they belong to; each ring becomes a closed path that follows its vertices by lines or along parts of the paths; areas are combined as the operation demands, under the contract of the external crate. Violated: no panics, loops of a single curve, transforms of the elements, and the rule of a single selected path. Missing: a bound on the area between the polygons and the outcome."
  },
  {
   "property": "C80",
   "status": "partial",
   "theorems": [
    "Verif.Lint.reportNs_iff",
    "Verif.Lint.reportNs_nodup",
    "Verif.Lint.svg_default_violated",
    "Verif.Lint.reportIds_iff",
    "Verif.Lint.reportIds_nodup",
    "Verif.Lint.selector_violated",
    "Verif.Lint.default_iff",
    "Verif.Lint.own_prefix_violated",
    "Verif.Lint.second_prefix_violated",
    "Verif.Lint.usual_iff",
    "Verif.Lint.default_attr_violated"
   ],
   "note": "Exactly which declarations, ids and default values are reported, for all documents; right for prefixes in the usual documents. Violated: the namespace of SVG itself, a prefix of the declaring element, two prefixes of one namespace, ids in selectors, inherited properties."
  },
  {
   "property": "C81",
   "status": "partial",
   "theorems": [
    "Verif.Report.context_shows",
    "Verif.Report.naive_panics_iff",
    "Verif.Report.naive_word",
    "Verif.Report.naive_slash_violated",
    "Verif.Report.marks_iff",
    "Verif.Report.marks_violated",
    "Verif.Report.display_element",
    "Verif.Report.display_panics_iff"
   ],
   "note": "The lines shown are those of the source; the marks are under the range exactly for ASCII on one line. Violated: panics, the slash of an empty element, other characters, ranges over several lines."
  },
  {
   "property": "C82",
   "status": "partial",
   "theorems": [
    "Verif.Check.mem_reports",
    "Verif.Check.lint_ok_iff",
    "Verif.Check.lint_counts",
    "Verif.Check.check_exit_violated",
    "Verif.Check.check_exit_partial",
    "Verif.Check.check_config_violated",
    "Verif.Check.check_outcomes",
    "Verif.Check.config_unnamed",
    "Verif.Check.printed_violated",
    "Verif.Check.printed_some",
    "Verif.Check.session_shows",
    "Verif.Check.session_right_iff",
    "Verif.Check.stale_violated"
   ],
   "note": "What is reported, the outcome and the numbers are right for all rules and texts. Violated: the exit status, the option for the configuration, the printed configuration, and the removal of repaired problems in an editor."
  },
  {
   "property": "C83",
   "status": "partial",
   "theorems": [
    "Verif.Reuse.run_draws_partial",
    "Verif.Reuse.same_iff",
    "Verif.Reuse.run_uses",
    "Verif.Reuse.run_unbound_violated",
    "Verif.Reuse.run_id_violated",
    "Verif.Reuse.nested_lost_violated",
    "Verif.Reuse.referred_lost_violated",
    "Verif.Reuse.run_keeps_ids",
    "Verif.Reuse.tidy_others"
   ],
   "note": "What is drawn is kept for documents with one `svg` element whose duplicate paths have no children, are outside of `defs` and have harmless attributes. Violated: the prefix is not declared where it is used, ids move although they are referenced, nested `svg` elements lose shapes."
  },
  {
   "property": "C85",
   "status": "partial",
   "theorems": [
    "Verif.Jsx.toJsx_shows_iff",
    "Verif.Jsx.docJsx_shows_iff",
    "Verif.Jsx.attrName_spells",
    "Verif.Jsx.known_kept",
    "Verif.Jsx.known_inj",
    "Verif.Jsx.dropped_iff",
    "Verif.Jsx.stylesheet_violated",
    "Verif.Jsx.text_violated",
    "Verif.Jsx.prefixed_violated",
    "Verif.Jsx.important_violated",
    "Verif.Jsx.instruction_violated",
    "Verif.Jsx.unknown_violated",
    "Verif.Jsx.blank_violated",
    "Verif.Jsx.class_violated"
   ],
   "note": "The JSX reads as the document exactly for the documents `Faithful` describes. Violated by style sheets with rules, texts with braces or markup characters, prefixed elements, important declarations, processing instructions and unknown hyphenated attributes."
  },
  {
   "property": "C84",
   "status": "partial",
   "theorems": [
    "Verif.Jsx.transform_resolved",
    "Verif.Jsx.transform_runs",
    "Verif.Jsx.transform_imports",
    "Verif.Jsx.transform_typed_iff",
    "Verif.Jsx.transform_distinct_iff",
    "Verif.Jsx.index_exported_iff",
    "Verif.Jsx.index_distinct_iff",
    "Verif.Jsx.componentName_spec",
    "Verif.Jsx.componentName_nil_iff",
    "Verif.Jsx.ref_type_violated",
    "Verif.Jsx.props_type_violated",
    "Verif.Jsx.react_violated",
    "Verif.Jsx.mixed_import_violated",
    "Verif.Jsx.preact_violated",
    "Verif.Jsx.index_named_violated",
    "Verif.Jsx.index_again_violated",
    "Verif.Jsx.separator_violated",
    "Verif.Jsx.small_name_violated"
   ],
   "note": "Every value identifier is declared. Types, distinctness of names and the index hold exactly under the stated conditions, which fail for ordinary options and file names."
  },
  {
   "property": "C86",
   "status": "partial",
   "theorems": [
    "Verif.Jsx.svgAttrs_value",
    "Verif.Jsx.conditional_absent",
    "Verif.Jsx.conditional_given",
    "Verif.Jsx.replace_spec",
    "Verif.Jsx.replace_order",
    "Verif.Jsx.nativeName_iff",
    "Verif.Jsx.toNative_components",
    "Verif.Jsx.replace_order_violated",
    "Verif.Jsx.label_lost_violated",
    "Verif.Jsx.nested_title_violated",
    "Verif.Jsx.native_unclosed_violated",
    "Verif.Jsx.preset_sound",
    "Verif.Jsx.preset_readable",
    "Verif.Jsx.icon_size"
   ],
   "note": "The attributes of the `svg` element, the title and the description alone, replacements that do not chain and the elements of React Native are as configured. Title and description together are covered one at a time. Violated: labels without an id, nested titles, chained replacements, React Native elements left without children."
  },
  {
   "property": "C87",
   "status": "partial",
   "theorems": [
    "Verif.Clock.duration_kept",
    "Verif.Clock.duration_strict_iff",
    "Verif.Clock.offset_kept_iff",
    "Verif.Clock.half_second_violated"
   ],
   "note": "Every duration of the grammar keeps its length for readers that take `.5`; it stays in the strict grammar exactly if its last field is not below one. Numbers are exact decimals with runs of at most six digits; `f32` rounding is not modelled."
  },
  {
   "property": "C88",
   "status": "partial",
   "theorems": [
    "Verif.Clock.begin_kept_iff",
    "Verif.Clock.begin_kept_partial",
    "Verif.Clock.wait_kept_iff",
    "Verif.Clock.colon_violated",
    "Verif.Clock.escaped_violated",
    "Verif.Clock.dash_violated",
    "Verif.Clock.reversed_violated"
   ],
   "note": "Exact condition for begin values with offsets, events and other elements. Violated by negative offsets with a colon and by names with a minus sign. `repeat`, `accessKey` and `wallclock` are modelled but not covered by the theorem."
  },
  {
   "property": "C89",
   "status": "partial",
   "theorems": [
    "Verif.BySelector.remove_partial",
    "Verif.BySelector.items_partial",
    "Verif.BySelector.others_kept",
    "Verif.BySelector.job_fails_iff",
    "Verif.BySelector.chain_violated",
    "Verif.BySelector.cascade_violated",
    "Verif.BySelector.siblings_violated"
   ],
   "note": "Proved for selectors that ask for listed attributes of the element itself only and are treated as CSS says (names in lower case, no `:nth-child` but first and last, no `:empty`, `:link`, `:scope`), and for lists of items of which none asks for a listed attribute. That nothing else changes is proved for all selectors. Violated by selectors that ask for listed attributes of ancestors or siblings."
  },
  {
   "property": "C90",
   "status": "partial",
   "theorems": [
    "Verif.Sink.namespaces_kept_iff",
    "Verif.Sink.parse_kept",
    "Verif.Sink.panic_violated",
    "Verif.Sink.foreign_violated",
    "Verif.Sink.prefixed_violated"
   ],
   "note": "An exact characterisation for documents with bound prefixes other than `xml`: kept iff the root has no prefix, unprefixed elements are in the namespace of SVG (or none) and no prefix has two meanings. Violated otherwise, with a panic for `xml:` attributes in front of other prefixed ones. Values of attributes and other nodes are not modelled."
  },
  {
   "property": "C91",
   "status": "partial",
   "theorems": [
    "Verif.Keywords.enum_read",
    "Verif.Keywords.enum_kept_iff",
    "Verif.Keywords.tables_kept_iff",
    "Verif.Keywords.inherit_read",
    "Verif.Keywords.paint_read",
    "Verif.Keywords.paint_accepts",
    "Verif.Keywords.paint_kept",
    "Verif.Keywords.aspect_read",
    "Verif.Keywords.aspect_accepts",
    "Verif.Keywords.aspect_kept",
    "Verif.Keywords.font_kept",
    "Verif.Keywords.font_group_violated",
    "Verif.Keywords.font_order_violated",
    "Verif.Keywords.aria_relevant_violated",
    "Verif.Keywords.nbsp_violated",
    "Verif.Keywords.joined_violated",
    "Verif.Keywords.font_words"
   ],
   "note": "Proved for all texts: what is written for a value that was read has the same words or the same meaning, and valid values of enums, `paint-order` and `preserveAspectRatio` are read. Violated for `aria-relevant=\"additions text\"`, for `font-variant` with two words of a component or ligatures behind other words, and for white space that only Unicode knows. Types made of keywords and numbers are not modelled."
  },
  {
   "property": "C92",
   "status": "partial",
   "theorems": [
    "Verif.Rules.unknown_attrs",
    "Verif.Rules.deprecated_iff",
    "Verif.Rules.unknown_elem_iff",
    "Verif.Rules.root_unreported",
    "Verif.Rules.xlink_iff",
    "Verif.Rules.invalid_iff",
    "Verif.Rules.rest_place",
    "Verif.Rules.prefixed_legacy_violated",
    "Verif.Rules.aliased_invalid_violated",
    "Verif.Rules.shared_range_violated",
    "Verif.Rules.rest_place_violated"
   ],
   "note": "Proved for all tables and all elements: each rule reports exactly what breaks it, in order and with its own range. Violated for deprecated elements and invalid values with a prefix, for the range of the rest of a path with references, and for ranges of attributes with the same expanded name. The tables and the parsers of values are parameters."
  },
  {
   "property": "C93",
   "status": "partial",
   "theorems": [
    "Verif.Boxes.viewBox_kept",
    "Verif.Boxes.clip_kept",
    "Verif.Boxes.enable_kept",
    "Verif.Boxes.pair_kept",
    "Verif.Boxes.viewBox_sound",
    "Verif.Boxes.pair_sound",
    "Verif.Boxes.commas_violated",
    "Verif.Boxes.clip_commas_violated",
    "Verif.Boxes.clip_units",
    "Verif.Choice.clip_sound",
    "Verif.Choice.enable_sound"
   ],
   "note": "Proved for all texts: valid values are read and written with the same numbers. Violated for values with too many commas, which are made valid. Numbers are exact decimals (no rounding to f32)."
  },
  {
   "property": "C94",
   "status": "partial",
   "theorems": [
    "Verif.Choice.adjust_kept",
    "Verif.Choice.count_kept",
    "Verif.Choice.rotate_kept",
    "Verif.Choice.control_kept",
    "Verif.Choice.count_iff",
    "Verif.Choice.adjust_sound",
    "Verif.Choice.count_sound",
    "Verif.Choice.rotate_sound",
    "Verif.Choice.frequency_kept_partial",
    "Verif.Choice.frequency_sound",
    "Verif.Choice.frequency_iff",
    "Verif.Choice.khz_violated",
    "Verif.Choice.limit_kept",
    "Verif.Choice.repeat_kept",
    "Verif.Choice.limit_strict_iff",
    "Verif.Choice.control_sound"
   ],
   "note": "Proved for all texts, but for frequencies only with the units Hz and KHz; no frequency in kHz is read (violated). For min, max and repeatDur proved for numbers of at most six digits and readers that take a number without digits before its point; exactly when strict readers take it is proved too (limit_strict_iff). Numbers are exact decimals (no rounding to f32)."
  },
  {
   "property": "C95",
   "status": "partial",
   "theorems": [
    "Verif.Words.target_panic",
    "Verif.Words.target_written",
    "Verif.Words.target_kept",
    "Verif.Words.profile_panic",
    "Verif.Words.profile_written",
    "Verif.Words.profile_kept",
    "Verif.Words.in_panic",
    "Verif.Words.in_written",
    "Verif.Words.in_iff",
    "Verif.Words.in_space_violated",
    "Verif.Words.flag_panic",
    "Verif.Words.flag_written",
    "Verif.Words.flag_kept",
    "Verif.Words.undefined_written",
    "Verif.Words.undefined_kept",
    "Verif.Words.boolean_panic",
    "Verif.Words.boolean_written",
    "Verif.Words.boolean_kept",
    "Verif.Words.id_iff",
    "Verif.Words.id_no_panic",
    "Verif.Words.foreign_violated"
   ],
   "note": "Proved for all texts: what is read is written as it was, but for white space around it. Violated: valid names that do not begin with an ASCII character panic, and inputs of filters with white space behind them are not read."
  },
  {
   "property": "C96",
   "status": "partial",
   "theorems": [
    "Verif.Moves.list_kept",
    "Verif.Moves.long_violated",
    "Verif.Moves.list_sound",
    "Verif.Moves.css_last",
    "Verif.Moves.css_first_violated",
    "Verif.Moves.foreign_violated"
   ],
   "note": "Proved for all valid texts of fewer than 2048 functions of SVG: read and written with the same functions and numbers. Violated: longer lists panic, functions in CSS before the end are not read, text that begins with a character that is not ASCII panics. Numbers are exact decimals."
  },
  {
   "property": "C97",
   "status": "partial",
   "theorems": [
    "Verif.Shared.nothing_iff",
    "Verif.Shared.error_iff",
    "Verif.Shared.found",
    "Verif.Shared.name_iff",
    "Verif.Shared.values_iff",
    "Verif.Shared.members_iff",
    "Verif.Shared.flags_violated",
    "Verif.Shared.text_iff",
    "Verif.Shared.text_one",
    "Verif.Shared.same_text_violated",
    "Verif.Shared.other_text_violated"
   ],
   "note": "Proved for all selections: the name, the values, the permitted elements and the expected attributes are exactly those shared by all selected elements. Violated: permitted categories and expected groups are always all, and the text is not the common one."
  },
  {
   "property": "C98",
   "status": "partial",
   "theorems": [
    "Verif.Points.points_read",
    "Verif.Points.points_sound",
    "Verif.Points.points_prefix",
    "Verif.Points.points_accepted",
    "Verif.Points.points_halt",
    "Verif.Points.points_halt_violated",
    "Verif.Points.points_bare",
    "Verif.Points.written_eq",
    "Verif.Points.points_written_partial",
    "Verif.Points.letter_violated",
    "Verif.Points.moves_violated"
   ],
   "note": "Proved for all lists of points: they are read with all numbers in order, and written without a letter. Reading what was written is proved where C21 holds (its conditions on neighbouring numbers). Otherwise the points before the error are kept, and reading ends for every text without a close-path. Violated: path data is accepted as points, a close-path before a number is read for ever, and a second move is merged into the number before it."
  },
  {
   "property": "C99",
   "status": "partial",
   "theorems": [
    "Verif.Edit.attr_done",
    "Verif.Edit.style_done",
    "Verif.Edit.style_error",
    "Verif.Edit.important_iff",
    "Verif.Edit.important_else",
    "Verif.Edit.attr_panics_violated"
   ],
   "note": "Proved for all selections and documents: exactly the selected elements that accept the attribute or style are changed, and nothing else. Violated: a name with two colons panics."
  }
 ]
}