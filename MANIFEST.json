{
 "claims": [
  {
   "property": "C01",
   "status": "proved",
   "theorems": [
    "Dom.Str.C01_substr_ok",
    "Dom.Str.C01_substr_fail"
   ],
   "note": ""
  },
  {
   "property": "C02",
   "status": "proved",
   "theorems": [
    "Dom.Str.C02_insert_ok",
    "Dom.Str.C02_insert_index",
    "Dom.Str.C02_insert_overrun"
   ],
   "note": ""
  },
  {
   "property": "C03",
   "status": "proved",
   "theorems": [
    "Dom.Str.C03_replace_ok",
    "Dom.Str.C03_replace_fail",
    "Dom.Str.C03_replace_empty_range"
   ],
   "note": ""
  },
  {
   "property": "C04",
   "status": "proved",
   "theorems": [
    "Dom.Str.C04_index",
    "Dom.Str.C04_index_found_iff",
    "Dom.Str.C04_at_ok",
    "Dom.Str.C04_at_fail_partial",
    "Dom.Str.C04_at_wrap_violated"
   ],
   "note": "index exact for all strings of decodable characters; at exact for all indices below 2^32-1, and the wrap at 2^32-1 on the empty string is shown as a violation"
  },
  {
   "property": "C05",
   "status": "partial",
   "theorems": [
    "Dom.Str.C05_rindex_partial",
    "Dom.Str.C05_rindex_absent",
    "Dom.Str.C05_rindex_violated",
    "Dom.Str.C05_rindex_full_claim_false"
   ],
   "note": "false of the code (violation proved): results are one too large and most occurrences are missed; absence and maximality of position-1 are proved"
  },
  {
   "property": "C06",
   "status": "proved",
   "theorems": [
    "Dom.Str.C06_isEqual_iff",
    "Dom.Str.C06_isEqual_equivalence",
    "Dom.Str.C06_caseless_iff",
    "Dom.Str.C06_caseless_equivalence",
    "Dom.Str.C06_isEqual_caseless",
    "Dom.Str.C06_lwc_iff",
    "Dom.Str.C06_hash",
    "Dom.Str.C06_concat",
    "Dom.Str.C06_concat_assoc",
    "Dom.Str.C06_concat_unit",
    "Dom.Str.C06_concat_null"
   ],
   "note": ""
  },
  {
   "property": "C07",
   "status": "proved",
   "theorems": [
    "Dom.Str.C07_toLower",
    "Dom.Str.C07_toUpper",
    "Dom.Str.C07_unicode_unsupported",
    "Dom.Str.C07_idempotent",
    "Dom.Str.C07_toLower_chars"
   ],
   "note": ""
  },
  {
   "property": "C08",
   "status": "proved",
   "theorems": [
    "Dom.Str.C08_whitespace_op",
    "Dom.Str.C08_result",
    "Dom.Str.C08_idempotent"
   ],
   "note": ""
  },
  {
   "property": "C09",
   "status": "partial",
   "theorems": [
    "Dom.Tree.C09_append",
    "Dom.Tree.C09_insert",
    "Dom.Tree.C09_replace",
    "Dom.Tree.C09_delete",
    "Dom.Tree.C09_substring",
    "Dom.Tree.C09_append_null_violated"
   ],
   "note": "all operations for all contents, offsets and counts; appendData on a node without data trips an assertion (violation proved); result size bounded by 2^32 bytes"
  },
  {
   "property": "C10",
   "status": "proved",
   "theorems": [
    "Dom.Tree.C10_readonly"
   ],
   "note": ""
  },
  {
   "property": "C100",
   "status": "partial",
   "theorems": [
    "Dom.Oom.Nodes.C100_names",
    "Dom.Oom.Nodes.C100_qnames",
    "Dom.Oom.Nodes.C100_qnames_none",
    "Dom.Oom.Nodes.C100_rules_agree",
    "Dom.Oom.Nodes.C100_names_cases",
    "Dom.Oom.Nodes.C100_create_partial",
    "Dom.Oom.Nodes.C100_destroy",
    "Dom.Oom.Nodes.C100_life_partial",
    "Dom.Oom.Nodes.C100_svg_violated",
    "Dom.Oom.Nodes.C100_svg_refused_violated",
    "Dom.Oom.Nodes.C100_cases"
   ],
   "note": "For names judged by arbitrary rules, and (C100_names, C100_qnames, C100_qnames_none) for those of the code, joined with C14 and C16; strings without malformed UTF-8, and nodes without children, attributes and user data. Elements in the namespace of SVG in HTML documents are missing: C100_svg_violated and C100_svg_refused_violated show that they give back the reference of the caller."
  },
  {
   "property": "C101",
   "status": "partial",
   "theorems": [
    "Dom.Html.Activate.C101_event_partial",
    "Dom.Html.Activate.C101_silent_partial",
    "Dom.Html.Activate.C101_bubbles_violated",
    "Dom.Html.Activate.C101_prevented_violated",
    "Dom.Html.Activate.C101_shown_partial",
    "Dom.Html.Activate.C101_cancelable_violated",
    "Dom.Html.Activate.C101_cases"
   ],
   "note": "proved for all methods but three; violations proved: blur of input elements and blur and focus of select elements bubble (C101_bubbles_violated) and can be cancelled (C101_cancelable_violated), a click checks although a listener prevents it (C101_prevented_violated; that it checks whatever the type of the control is in C72). Missing: listeners that change the tree, and for the order of calls listeners that change the lists, and default actions; memory that runs out is in C102"
  },
  {
   "property": "C102",
   "status": "partial",
   "theorems": [
    "Dom.Oom.Events.C102_create_partial",
    "Dom.Oom.Events.C102_keyboard_partial",
    "Dom.Oom.Events.C102_keyboard_violated",
    "Dom.Oom.Events.C102_life_partial",
    "Dom.Oom.Events.C102_method",
    "Dom.Oom.Events.C102_idle",
    "Dom.Oom.Events.C102_click",
    "Dom.Oom.Events.C102_cases"
   ],
   "note": "proved for all kinds but keyboard events, and for keyboard events when the block is refused or everything is granted; violation proved: a keyboard event whose empty string is refused leaves its block allocated (C102_keyboard_violated). Missing: listeners that use memory, the fields set by the init functions (C74)"
  },
  {
   "property": "C103",
   "status": "proved",
   "theorems": [
    "Dom.Oom.Lists.C103_accounts",
    "Dom.Oom.Lists.C103_release",
    "Dom.Oom.Lists.C103_get",
    "Dom.Oom.Lists.C103_case",
    "Dom.Oom.Lists.C103_cases"
   ],
   "note": "Counts do not wrap around; strings are lists of characters; the client has references to the root and the strings it passes (kept as in the start of the history) and passes a tag name where one is needed (the assertion otherwise is C59); destruction of nodes by a last reference is not part of this model."
  },
  {
   "property": "C104",
   "status": "partial",
   "theorems": [
    "Dom.Oom.Cols.C104_accounts",
    "Dom.Oom.Cols.C104_release",
    "Dom.Oom.Cols.C104_make",
    "Dom.Oom.Cols.C104_length",
    "Dom.Oom.Cols.C104_applets_partial",
    "Dom.Oom.Cols.C104_applets_violated",
    "Dom.Oom.Cols.C104_item",
    "Dom.Oom.Cols.C104_applets_item_partial",
    "Dom.Oom.Cols.C104_applets_item_violated",
    "Dom.Oom.Cols.C104_no_root_violated",
    "Dom.Oom.Cols.C104_cases"
   ],
   "note": "The length of `applets` is too small and its items move up without an error if the request for an OBJECT with an APPLET is refused (C104_applets_violated, C104_applets_item_violated), and a document without document element fails an assertion (C104_no_root_violated); everything else holds for all histories. The walk over the tree is C35, the tests are C69; counts do not wrap around."
  },
  {
   "property": "C105",
   "status": "partial",
   "theorems": [
    "Dom.Oom.Keys.C105_history",
    "Dom.Oom.Keys.C105_set",
    "Dom.Oom.Keys.C105_release",
    "Dom.Oom.Keys.C105_null_violated",
    "Dom.Oom.Keys.C105_cases"
   ],
   "note": "Setting a key without entry to NULL needs memory, can answer DOM_NO_MEM_ERR, and leaves an entry whose handler is called later (C105_null_violated); everything else holds for all histories. The pointers between entries are C45; handlers do not call back into the node."
  },
  {
   "property": "C106",
   "status": "proved",
   "theorems": [
    "Dom.Oom.Listen.C106_accounts",
    "Dom.Oom.Listen.C106_add",
    "Dom.Oom.Listen.C106_remove",
    "Dom.Oom.Listen.C106_release",
    "Dom.Oom.Listen.C106_cases"
   ],
   "note": "One target; a client registers only listeners it has a reference to; the pointers of the ring are C77; which of several registrations a removal without type takes, and the order after a removal, is C41."
  },
  {
   "property": "C11",
   "status": "partial",
   "theorems": [
    "Dom.Tree.C11_split_partial",
    "Dom.Tree.C11_split_index",
    "Dom.Tree.C11_split_end_violated",
    "Dom.Tree.C11_not_inserted_violated"
   ],
   "note": "conservation proved; split at the end is refused and the new node is not inserted (violations proved)"
  },
  {
   "property": "C12",
   "status": "partial",
   "theorems": [
    "Dom.Tree.C12_whole_text_partial",
    "Dom.Tree.C12_orphan",
    "Dom.Tree.C12_three_texts_violated"
   ],
   "note": "at most one further text on each side; longer runs are cut (violation proved)"
  },
  {
   "property": "C13",
   "status": "proved",
   "theorems": [
    "Dom.Names.C13_in_group",
    "Dom.Names.C13_tables"
   ],
   "note": "the six tables are sorted and disjoint (checked by kernel computation over the whole tables, which are data of the code); the search is proved for every sorted table"
  },
  {
   "property": "C14",
   "status": "partial",
   "theorems": [
    "Dom.Names.C14_name_iff",
    "Dom.Names.C14_create",
    "Dom.Names.C14_ncname_partial",
    "Dom.Names.C14_ncname_is_name",
    "Dom.Names.C14_ncname_violated",
    "Dom.Names.C14_create_ns"
   ],
   "note": "Name: exact for all strings; NCName of the code is narrower for non-ASCII starts (violation proved)"
  },
  {
   "property": "C15",
   "status": "partial",
   "theorems": [
    "Dom.Names.C15_accept_iff",
    "Dom.Names.C15_attribute_name_partial",
    "Dom.Names.C15_controls_violated"
   ],
   "note": "accepted exactly without white space, '\"', '\\'', '>', '/', '='; NUL and other control characters are accepted (violation proved)"
  },
  {
   "property": "C16",
   "status": "partial",
   "theorems": [
    "Dom.Names.C16_split_lossless",
    "Dom.Names.C16_rules_iff",
    "Dom.Names.C16_rules_partial",
    "Dom.Names.C16_no_namespace",
    "Dom.Names.C16_empty_prefix_violated",
    "Dom.Names.C16_xmlns_violated"
   ],
   "note": "exact decision with a namespace (up to the narrower NCName), lossless split always; without a namespace ':a' and 'xmlns' are accepted (violations proved)"
  },
  {
   "property": "C17",
   "status": "proved",
   "theorems": [
    "Dom.Hash.C17_refines",
    "Dom.Hash.C17_iterate"
   ],
   "note": "for fewer than 2^32 entries; lawful vtable (equal keys have equal hashes); destroy not modelled"
  },
  {
   "property": "C18",
   "status": "proved",
   "theorems": [
    "Dom.Hash.C18_clone",
    "Dom.Hash.C18_independent"
   ],
   "note": "client clone functions succeed and preserve key equality"
  },
  {
   "property": "C19",
   "status": "partial",
   "theorems": [
    "Dom.Tree.C19_released_parent_siblings_violated",
    "Dom.Tree.C19_links_agree",
    "Dom.Tree.C19_links_agree_after_release_partial",
    "Dom.Tree.C19_links_violated"
   ],
   "note": "proved for every history of the modelled calls except: an empty fragment replacing a node with siblings (violation proved), an attribute of p given as child of p; after releases: proved when no referenced node with siblings loses its parent by the release, else false (violation proved)"
  },
  {
   "property": "C20",
   "status": "proved",
   "theorems": [
    "Dom.Tree.C20_insert_effect",
    "Dom.Tree.C20_insert_self",
    "Dom.Tree.C20_append_effect",
    "Dom.Tree.C20_insert_decision"
   ],
   "note": "effect, decision and self case for every well-formed forest; attributes of p itself excluded as reference node"
  },
  {
   "property": "C21",
   "status": "proved",
   "theorems": [
    "Dom.Tree.C21_remove_effect",
    "Dom.Tree.C21_remove_decision"
   ],
   "note": "effect and decision; the code refuses to remove Element/DocumentType children of a Document with NOT_SUPPORTED"
  },
  {
   "property": "C22",
   "status": "partial",
   "theorems": [
    "Dom.Tree.C22_replace_effect_partial",
    "Dom.Tree.C22_replace_self",
    "Dom.Tree.C22_replace_decision",
    "Dom.Tree.C22_empty_fragment_violated"
   ],
   "note": "effect and decision except for an empty fragment replacing a node with siblings (violation proved)"
  },
  {
   "property": "C23",
   "status": "partial",
   "theorems": [
    "Dom.Tree.C23_failed_links_partial",
    "Dom.Tree.C23_failed_unchanged",
    "Dom.Tree.C23_pending_violated"
   ],
   "note": "exact for everything but refused fragment insertions, which lose the pending mark of the fragment (violation proved)"
  },
  {
   "property": "C24",
   "status": "proved",
   "theorems": [
    "Dom.Tree.C24_acyclic",
    "Dom.Tree.C24_insert_cycle_refused",
    "Dom.Tree.C24_replace_cycle_refused"
   ],
   "note": "for every history of the modelled calls satisfying Call.Ok"
  },
  {
   "property": "C25",
   "status": "partial",
   "theorems": [
    "Dom.Tree.C25_child_types",
    "Dom.Tree.C25_one_root_partial",
    "Dom.Tree.C25_two_roots_violated"
   ],
   "note": "types proved for all histories; one root needs that fragments given to a Document have at most one element (violation proved otherwise)"
  },
  {
   "property": "C26",
   "status": "proved",
   "theorems": [
    "Dom.Tree.C26_one_owner",
    "Dom.Tree.C26_wrong_document"
   ],
   "note": "for every history of creation and tree mutation calls (import/adopt: see C27)"
  },
  {
   "property": "C27",
   "status": "partial",
   "theorems": [
    "Dom.Tree.C27_import_partial",
    "Dom.Tree.C27_import_owner_violated",
    "Dom.Tree.C27_import_refused",
    "Dom.Tree.C27_adopt_partial",
    "Dom.Tree.C27_adopt_text_violated",
    "Dom.Tree.C27_adopt_attribute_violated"
   ],
   "note": "within one document: the result is new, of the document with everything below it, has the shape of the original and can be inserted; nothing old changes (import) or only the original leaves its parent (adopt of elements and fragments); false otherwise: nodes of other documents keep their owner, texts are adopted as NULL, adopting an attribute drops the children of its element (violations proved)"
  },
  {
   "property": "C28",
   "status": "partial",
   "theorems": [
    "Dom.Tree.C28_clone_partial",
    "Dom.Tree.C28_clone_refused",
    "Dom.Tree.C28_pi_clone_violated",
    "Dom.Tree.C28_shallow_attribute_violated"
   ],
   "note": "all node types for which the code has a working copy function: new nodes only, same shape, original untouched; Document and DocumentType refused; false for ProcessingInstructions and for shallow clones of attributes (violations proved); HTML elements and user data handlers not included"
  },
  {
   "property": "C29",
   "status": "proved",
   "theorems": [
    "Dom.Tree.C29_contains",
    "Dom.Tree.C29_contains_subtree",
    "Dom.Tree.C29_partial_order"
   ],
   "note": "exact in terms of parent links (an attribute counts as below its element); equal to the subtree relation outside attributes"
  },
  {
   "property": "C30",
   "status": "partial",
   "theorems": [
    "Dom.Tree.C30_read",
    "Dom.Tree.C30_read_other",
    "Dom.Tree.C30_write_partial",
    "Dom.Tree.C30_write_refused",
    "Dom.Tree.C30_empty_violated",
    "Dom.Tree.C30_dangling_violated"
   ],
   "note": "reading exact for every node kind; writing proved with the release of the old children: exact child list, unreferenced children freed, reference counts and soundness of the memory kept; an empty string always leaves an empty Text child, and held nodes with siblings below a released child keep dangling sibling pointers (violations proved)"
  },
  {
   "property": "C31",
   "status": "partial",
   "theorems": [
    "Dom.Tree.C31_no_adjacent_partial",
    "Dom.Tree.C31_normal_unchanged_partial",
    "Dom.Tree.C31_text_duplicated_violated",
    "Dom.Tree.C31_first_child_violated",
    "Dom.Tree.C31_empty_text_violated"
   ],
   "note": "after a successful normalize no adjacent Text siblings in the nodes the code looks into, nothing else taken out, other nodes untouched; a tree without adjacent texts is unchanged; false otherwise: text is duplicated, first children are not entered, empty texts stay (violations proved)"
  },
  {
   "property": "C32",
   "status": "partial",
   "theorems": [
    "Dom.Trav.C32_length",
    "Dom.Trav.C32_item_partial",
    "Dom.Trav.C32_null_namespace_violated",
    "Dom.Trav.C32_last_index_violated"
   ],
   "note": "length exact for every list; item exact for all indices below 2^32-1 except namespace lists asked with a NULL namespace; both exceptions are shown as violations. The sharing of lists (get_nodelist) is C59"
  },
  {
   "property": "C33",
   "status": "partial",
   "theorems": [
    "Dom.Query.C33_by_id_partial",
    "Dom.Trav.C33_search_partial",
    "Dom.Trav.C33_two_roots_violated"
   ],
   "note": "search proved for documents with at most one Element child, with the ids read from the attributes of the elements; a second root element is never searched (violation proved)"
  },
  {
   "property": "C34",
   "status": "proved",
   "theorems": [
    "Dom.Trav.C34_walk",
    "Dom.Trav.C34_calls",
    "Dom.Trav.C34_tour"
   ],
   "note": "the whole walk equals the recursive visit for every callback; calls and tour derived. The callback does not change the tree"
  },
  {
   "property": "C35",
   "status": "partial",
   "theorems": [
    "Dom.Html.Collect.C35_by_attributes_partial",
    "Dom.Html.Collect.C35_options_named_partial",
    "Dom.Trav.C35_collection_partial",
    "Dom.Trav.C35_empty_root_violated",
    "Dom.Trav.C35_last_index_violated"
   ],
   "note": "length, item, namedItem for collections whose root has a child or is the last sibling, and indices below 2^32-1; also for collections whose test and names are read from the attributes (C35_by_attributes_partial) and for the options of a select. Childless root and last index are shown as violations."
  },
  {
   "property": "C36",
   "status": "partial",
   "theorems": [
    "Dom.Attr.C36_read",
    "Dom.Attr.C36_set",
    "Dom.Attr.C36_remove_partial",
    "Dom.Attr.C36_remove_ns",
    "Dom.Attr.C36_set_ns",
    "Dom.Attr.C36_set_ns_refused",
    "Dom.Attr.C36_set_ns_none",
    "Dom.Attr.C36_remove_violated",
    "Dom.Query.C36_has_attributes_violated"
   ],
   "note": "set/get/has/remove, order and frame for every element state, by name and by namespace and qualified name (with its refusals); after removal without namespace only when one entry has the local name (violation proved otherwise); hasAttributes is true of every element (violation proved)"
  },
  {
   "property": "C37",
   "status": "partial",
   "theorems": [
    "Dom.Attr.C37_unique_partial",
    "Dom.Attr.C37_length",
    "Dom.Attr.C37_item",
    "Dom.Attr.C37_named",
    "Dom.Attr.C37_remove_named",
    "Dom.Attr.C37_duplicate_violated",
    "Dom.Attr.C37_twice_violated"
   ],
   "note": "uniqueness for every history of fair calls; setAttributeNode outside the stated limits breaks it (violations proved); length, item, named items and removal through the map exact"
  },
  {
   "property": "C38",
   "status": "partial",
   "theorems": [
    "Dom.Attr.C38_install_partial",
    "Dom.Attr.C38_refused",
    "Dom.Attr.C38_remove_partial",
    "Dom.Attr.C38_first_violated",
    "Dom.Attr.C38_prefix_violated"
   ],
   "note": "install, replace, refusal and removal; replacing the first attribute is a use after free, prefixed attributes are not found (violations proved)"
  },
  {
   "property": "C39",
   "status": "partial",
   "theorems": [
    "Dom.Attr.C39_refused",
    "Dom.Attr.C39_fixed",
    "Dom.Attr.C39_integer",
    "Dom.Attr.C39_short",
    "Dom.Attr.C39_bool_partial",
    "Dom.Attr.C39_string",
    "Dom.Attr.C39_bool_violated",
    "Dom.Attr.C39_string_read_violated"
   ],
   "note": "types are fixed along every history, wrong types refused, values read back; first write of a bool and string reads of numbers are violations (proved)"
  },
  {
   "property": "C40",
   "status": "partial",
   "theorems": [
    "Dom.Attr.C40_set_partial",
    "Dom.Attr.C40_remove",
    "Dom.Attr.C40_stale_violated",
    "Dom.Attr.C40_space_violated"
   ],
   "note": "exact when the attribute is added or removed; changing it leaves the classes stale, only spaces separate (violations proved)"
  },
  {
   "property": "C41",
   "status": "partial",
   "theorems": [
    "Dom.Events.C41_order_partial",
    "Dom.Events.C41_multiset_partial",
    "Dom.Events.C41_due",
    "Dom.Events.C41_order_violated"
   ],
   "note": "the set of registrations is exact; order only when removals hit the oldest or newest registration (violation proved for a removal in the middle); NULL type removal excluded from the multiset statement"
  },
  {
   "property": "C42",
   "status": "partial",
   "theorems": [
    "Dom.Events.C42_added_runs_violated",
    "Dom.Events.C42_endless_violated",
    "Dom.Events.C42_path",
    "Dom.Events.Live.C42_any_listeners_partial",
    "Dom.Events.C42_self_removal_violated"
   ],
   "note": "exact calls for listeners that change neither listener lists nor the tree; for listeners that do anything as careful clients: only along the path, in order, only registered ones; false for listeners that remove or add listeners (violations proved)"
  },
  {
   "property": "C43",
   "status": "proved",
   "theorems": [
    "Dom.Events.C43_stop_and_prevent",
    "Dom.Events.C43_stop_now_is_last",
    "Dom.Events.C43_stop_same_target",
    "Dom.Events.C43_stop_rest_of_target"
   ],
   "note": "exact for listeners that change neither listener lists nor the tree; C42_any_listeners_partial has the same about stopping and preventing for listeners that do anything"
  },
  {
   "property": "C44",
   "status": "partial",
   "theorems": [
    "Dom.Events.C44_in_dispatch_partial",
    "Dom.Events.C44_again_violated"
   ],
   "note": "false of the code: a finished event is never accepted again (violation proved for every completed dispatch)"
  },
  {
   "property": "C45",
   "status": "proved",
   "theorems": [
    "Dom.User.C45_get",
    "Dom.User.C45_set",
    "Dom.User.C45_others",
    "Dom.User.C45_release"
   ],
   "note": ""
  },
  {
   "property": "C46",
   "status": "partial",
   "theorems": [
    "Dom.Attr.C46_attributes_partial",
    "Dom.Attr.C46_attr_set_value_violated",
    "Dom.Events.Live.C46_dispatch_live_partial",
    "Dom.Events.C46_dispatch_bounded",
    "Dom.Html.C46_reflect_violated",
    "Dom.Html.C46_reflect_bool_violated",
    "Dom.Tree.C46_stale_sibling_violated",
    "Dom.Tree.C46_fragment_document_freed_violated",
    "Dom.Tree.C46_pi_clone_violated",
    "Dom.Tree.C46_doctype_clone_violated",
    "Dom.Tree.C46_editing_live_partial",
    "Dom.Tree.C46_editing_no_fault_partial",
    "Dom.Tree.C46_referenced_nodes_live_partial",
    "Dom.Tree.C46_client_no_fault_partial",
    "Dom.Tree.C46_tree_calls_no_fault_partial",
    "Dom.Tree.C46_normalize_violated"
   ],
   "note": "every history of a client that creates, moves, removes, clones, looks around, references and releases nodes, edits character data, splits Text nodes, sets text content and sets and removes attributes by name: no fault, and referenced nodes are in memory, with the faulty cases left out and each shown to fault (stale siblings after release, document freed under an inserted fragment, reused fragment, clone of a ProcessingInstruction, clone of a DocumentType without document, appending to NULL data, setting the value of an attribute without element); dispatch of events to listeners that use the tree: no fault if the caller has references to the path; strings and HTML parts only in their own modules"
  },
  {
   "property": "C47",
   "status": "partial",
   "theorems": [
    "Dom.Tree.C47_document_leaks_violated",
    "Dom.Tree.C47_editing_needed_partial",
    "Dom.Tree.C47_editing_no_leak_partial",
    "Dom.Tree.C47_import_violated",
    "Dom.Tree.C47_memory_needed_partial",
    "Dom.Tree.C47_document_released_partial",
    "Dom.Tree.C47_nothing_leaks_partial",
    "Dom.Tree.C47_release",
    "Dom.Tree.C47_release_document",
    "Dom.Tree.C47_normalize_violated"
   ],
   "note": "every such history (also with edits of character data, text content and attributes): what is in memory is needed for a referenced node, all is freed when all references are given up; the effect of the last release is proved exactly; false when an inserted fragment is used again, after a deep import and after normalize (violations proved); user data handlers and HTML documents not included"
  },
  {
   "property": "C48",
   "status": "partial",
   "theorems": [
    "Dom.Tree.C48_fragment_reuse_violated"
   ],
   "note": "false of the code: reinserting an inserted fragment trips an assertion (violation proved); the document of a held inserted fragment may be freed (violation proved under C46)"
  },
  {
   "property": "C49",
   "status": "partial",
   "theorems": [
    "Dom.Tokens.C49_reads_partial",
    "Dom.Tokens.C49_add_partial",
    "Dom.Tokens.C49_remove_partial",
    "Dom.Tokens.C49_total_partial",
    "Dom.Tokens.C49_stale_violated",
    "Dom.Tokens.C49_removed_violated",
    "Dom.Tokens.C49_white_violated",
    "Dom.Tokens.C49_utf8_violated",
    "Dom.Tokens.C49_utf8_written_violated",
    "Dom.Tokens.C49_word_violated"
   ],
   "note": "exact for ASCII values with spaces as the only white space and valid words; the list misses a direct write of what it wrote last, cuts off non-ASCII values, splits only at spaces and checks no words (violations proved)"
  },
  {
   "property": "C50",
   "status": "partial",
   "theorems": [
    "Dom.Tree.C50_insert_events",
    "Dom.Tree.C50_remove_events_partial",
    "Dom.Tree.C50_replace_events_partial",
    "Dom.Tree.C50_failed_silent",
    "Dom.Tree.C50_remove_twice_violated",
    "Dom.Tree.C50_replace_silent_violated"
   ],
   "note": "insertion events exact, failures silent; removal events come twice and replacement raises none (violations proved)"
  },
  {
   "property": "C51",
   "status": "partial",
   "theorems": [
    "Dom.Attr.C51_read",
    "Dom.Attr.C51_set",
    "Dom.Attr.C51_remove_partial",
    "Dom.Attr.C51_svg_partial",
    "Dom.Attr.C51_svg_violated"
   ],
   "note": "all four calls on HTML elements and on SVG elements with unknown tags; SVG elements with known tags fold (violation proved)"
  },
  {
   "property": "C52",
   "status": "partial",
   "theorems": [
    "Dom.Html.C52_int32",
    "Dom.Html.C52_ulong",
    "Dom.Html.C52_canvas_partial",
    "Dom.Html.C52_bool_partial",
    "Dom.Html.C52_prefix_violated",
    "Dom.Html.C52_two_violated",
    "Dom.Html.C52_canvas_violated"
   ],
   "note": "Integer properties (signed, unsigned) are proved for every 32-bit value. Boolean properties: proved when the attribute found has no prefix and is the only one with that local name; violated otherwise. Canvas sizes: 2^32-1 is reported as the default (violated)."
  },
  {
   "property": "C53",
   "status": "partial",
   "theorems": [
    "Dom.Html.Table.C53_create_section",
    "Dom.Html.Table.C53_delete_section",
    "Dom.Html.Table.C53_first_row_index",
    "Dom.Html.Table.C53_first_row",
    "Dom.Html.Table.C53_first_row_body",
    "Dom.Html.Table.C53_set_foot_refused",
    "Dom.Html.Table.C53_set_foot",
    "Dom.Html.Table.C53_section_insert_partial",
    "Dom.Html.Table.C53_section_delete_partial",
    "Dom.Html.Table.C53_rows_partial",
    "Dom.Html.Table.C53_insert_partial",
    "Dom.Html.Table.C53_delete_partial",
    "Dom.Html.Table.C53_order_violated",
    "Dom.Html.Table.C53_no_head_violated",
    "Dom.Html.Table.C53_two_rows_violated",
    "Dom.Html.Table.C53_nested_violated",
    "Dom.Html.Table.C53_empty_section_violated",
    "Dom.Html.Table.C53_head_violated"
   ],
   "note": "Reading, inserting and deleting rows are proved for sections and for tables whose sections come as one head, bodies, at most one foot, with no nested rows and no empty section before a sibling; the first row of a table without rows, and creating, deleting and setting sections are proved for all tables. Without a head the code dereferences NULL; the rows come in document order; nested rows are counted; set_t_head asks for CAPTION (violated)."
  },
  {
   "property": "C54",
   "status": "partial",
   "theorems": [
    "Dom.Html.C54_index_partial",
    "Dom.Html.C54_value_partial",
    "Dom.Html.C54_option_value",
    "Dom.Html.C54_set_value_partial",
    "Dom.Html.C54_set_partial",
    "Dom.Html.C54_keeps_violated",
    "Dom.Html.C54_set_value_violated",
    "Dom.Html.C54_range_violated",
    "Dom.Html.C54_minus_violated",
    "Dom.Html.C54_empty_violated"
   ],
   "note": "Reading selectedIndex and value, setting an index in range and setting the value are proved for select elements that have children or no next sibling and fewer than 2^31 options. Setting leaves earlier options selected, setting the value overwrites the selected option instead of selecting, out-of-range dereferences NULL, -1 marks the select element itself, and an empty select followed by a sibling is walked out of (violated)."
  },
  {
   "property": "C55",
   "status": "partial",
   "theorems": [
    "Dom.Attr.C55_set",
    "Dom.Attr.C55_remove",
    "Dom.Attr.C55_refused_partial",
    "Dom.Attr.C55_refused_violated"
   ],
   "note": "events exact for successful calls; a refusing attribute still raises an event (violation proved)"
  },
  {
   "property": "C56",
   "status": "partial",
   "theorems": [
    "Dom.Html.C56_text_partial",
    "Dom.Html.C56_shown_partial",
    "Dom.Html.C56_nested_violated"
   ],
   "note": "Options without element children: the text with white space stripped and collapsed. Options with arbitrary nested content (C56_shown_partial): text outside of HTML and SVG script elements, each element stripped on its own; the stripping joins words (violated)."
  },
  {
   "property": "C57",
   "status": "partial",
   "theorems": [
    "Dom.Query.C57_sound_partial",
    "Dom.Query.C57_different",
    "Dom.Query.C57_element",
    "Dom.Query.C57_other_violated",
    "Dom.Query.C57_element_violated"
   ],
   "note": "\"equal\" is only said of equal nodes, and different type, name, prefix, namespace or value give \"different\"; false otherwise: two elements are equal only if they are the same node, any other node faults with a NULL attribute map (violations proved for all nodes)"
  },
  {
   "property": "C58",
   "status": "partial",
   "theorems": [
    "Dom.Query.C58_is_default_partial",
    "Dom.Query.C58_lookup_partial",
    "Dom.Query.C58_lookup_default_partial",
    "Dom.Query.C58_lookup_prefix_violated",
    "Dom.Query.C58_declaration_violated",
    "Dom.Query.C58_default_violated",
    "Dom.Query.C58_document_violated",
    "Dom.Query.C58_empty_violated",
    "Dom.Query.C58_foreign_violated"
   ],
   "note": "isDefaultNamespace and the lookup without prefix for every node of every reachable tree and attribute memory; the lookup of a prefix where nothing is declared; false otherwise: declared prefixes are not found, a default declaration answers for every prefix, Documents find nothing, an empty declaration gives the empty string, and lookupPrefix calls a function of another type (violations proved)"
  },
  {
   "property": "C59",
   "status": "proved",
   "theorems": [
    "Dom.Cache.C59_alive",
    "Dom.Cache.C59_unique",
    "Dom.Cache.C59_get_same",
    "Dom.Cache.C59_get_new",
    "Dom.Cache.C59_get_safe",
    "Dom.Cache.C59_unref",
    "Dom.Cache.C59_refs",
    "Dom.Cache.C59_no_leak",
    "Dom.Cache.C59_items"
   ],
   "note": "the 32-bit reference count is assumed not to overflow; a request by tag name without one ends in the code's assertion (C59_get_safe); allocation succeeds"
  },
  {
   "property": "C60",
   "status": "partial",
   "theorems": [
    "Dom.Attr.C60_set_ns_violated",
    "Dom.Query.C60_node_name",
    "Dom.Query.C60_create",
    "Dom.Query.C60_prefix_namespace",
    "Dom.Query.C60_set_prefix_partial",
    "Dom.Query.C60_set_prefix_other",
    "Dom.Query.C60_prefix_violated"
   ],
   "note": "names, creation, the prefix/namespace invariant and setting the prefix for all reachable trees; a prefix that is not a name is accepted and setAttributeNS drops the prefix (violations proved)"
  },
  {
   "property": "C61",
   "status": "partial",
   "theorems": [
    "Dom.Query.C61_set_partial",
    "Dom.Query.C61_set_other",
    "Dom.Query.C61_events_violated"
   ],
   "note": "stored value, frame and refusals for all reachable trees; no mutation event is raised (violation proved)"
  },
  {
   "property": "C62",
   "status": "proved",
   "theorems": [
    "Dom.Query.C62_named_ancestor",
    "Dom.Query.C62_parent_element",
    "Dom.Query.C62_named_parent"
   ],
   "note": "for every node of every reachable tree"
  },
  {
   "property": "C63",
   "status": "partial",
   "theorems": [
    "Dom.Query.C63_not_found",
    "Dom.Query.C63_declare",
    "Dom.Query.C63_undeclare_violated"
   ],
   "note": "declaring and refusal proved; undeclaring leaves the id as it was (violation proved)"
  },
  {
   "property": "C64",
   "status": "partial",
   "theorems": [
    "Dom.Parse.C64_add_attributes_partial",
    "Dom.Parse.C64_append_attached_violated",
    "Dom.Parse.C64_reparent_fail_violated",
    "Dom.Parse.C64_reparent",
    "Dom.Parse.C64_reparent_refused",
    "Dom.Parse.C64_reparent_self_violated",
    "Dom.Parse.C64_append_text_partial",
    "Dom.Parse.C64_append_node",
    "Dom.Parse.C64_get_parent_partial",
    "Dom.Parse.C64_get_parent_violated"
   ],
   "note": "Violations proved: appending a Text that has a parent duplicates its text instead of moving it (C64_append_attached_violated), get_parent with element_only dereferences NULL for a parentless node (C64_get_parent_violated), reparent_children onto the same node never ends (C64_reparent_self_violated) and a failing reparent_children leaves the tree changed (C64_reparent_fail_violated). Missing: form_associate; the creating callbacks and attributes with a namespace are in C80."
  },
  {
   "property": "C65",
   "status": "partial",
   "theorems": [
    "Dom.Intern.C65_calls",
    "Dom.Intern.C65_result",
    "Dom.Intern.C65_intern_bytes",
    "Dom.Intern.C65_stable",
    "Dom.Intern.C65_lwc_stable",
    "Dom.Intern.C65_alive",
    "Dom.Intern.C65_lwc_alive",
    "Dom.Intern.C65_no_leak",
    "Dom.Intern.C65_buffers",
    "Dom.Intern.C65_equal",
    "Dom.Intern.C65_lwc_equal",
    "Dom.Intern.C65_intern_unique",
    "Dom.Intern.C65_whitespace_violated",
    "Dom.Intern.C65_data_violated"
   ],
   "note": "All of it is proved for the calls listed with `dom_string_whitespace_op` restricted to strings that are not empty. For an empty string the code takes a reference nobody gives back (string.c:1048-1050), `C65_whitespace_violated`. The bytes stay readable through the string, but not at the address dom_string_data returned before interning, `C65_data_violated`. libwapcaplet is represented by its documented contract."
  },
  {
   "property": "C66",
   "status": "partial",
   "theorems": [
    "Dom.Html.C66_int32_partial",
    "Dom.Html.C66_ulong_partial",
    "Dom.Html.C66_absent",
    "Dom.Html.C66_octal_violated",
    "Dom.Html.C66_hex_violated",
    "Dom.Html.C66_garbage_violated",
    "Dom.Html.C66_large_violated"
   ],
   "note": "decimal numbers without leading zero that fit, and absent attributes, exact; leading zeros are read as octal, 0x as hexadecimal, garbage as 0, large numbers modulo 2^32 (violations proved)"
  },
  {
   "property": "C67",
   "status": "partial",
   "theorems": [
    "Dom.Html.Table.C67_cell_insert_partial",
    "Dom.Html.Table.C67_cell_delete_partial",
    "Dom.Html.Table.C67_section_index",
    "Dom.Html.Table.C67_row_index_partial",
    "Dom.Html.Table.C67_detached_violated",
    "Dom.Html.Table.C67_direct_violated",
    "Dom.Html.Table.C67_foot_violated",
    "Dom.Html.Table.C67_index_violated",
    "Dom.Html.Table.C67_heading_violated",
    "Dom.Html.Table.C67_nested_violated",
    "Dom.Html.Table.C67_empty_violated"
   ],
   "note": "The index in the section is proved for every row with a parent; the index in the table for tables of one head, bodies, at most one foot in this order; cells for rows whose TD descendants are all children. Detached rows dereference NULL, a foot before the body gives two rows the same index, rows directly in the table have no index, TH is not a cell, cells of nested tables count (violated)."
  },
  {
   "property": "C68",
   "status": "partial",
   "theorems": [
    "Dom.Html.Create.C68_type",
    "Dom.Html.Create.C68_create",
    "Dom.Html.Create.C68_refused",
    "Dom.Html.Create.C68_release",
    "Dom.Html.Create.C68_create_ns_partial",
    "Dom.Html.Create.C68_ns_refused",
    "Dom.Html.Create.C68_ns_error",
    "Dom.Html.Create.C68_ready",
    "Dom.Html.Create.C68_finalise",
    "Dom.Html.Create.C68_svg_prefix_violated",
    "Dom.Html.Create.C68_svg_violated",
    "Dom.Html.Create.C68_uninitialised_violated",
    "Dom.Html.Create.C68_normalise_violated",
    "Dom.Html.Create.C68_released_violated",
    "Dom.Html.Create.C68_svg_cases_violated",
    "Dom.Html.Create.C68_name_violated"
   ],
   "note": "Names, types and references proved for names without a namespace and for namespaces other than SVG. In the SVG namespace references are given back that were never taken; names are not validated; finalised namespaces make NULL the SVG namespace; the question for lower-case attribute names leaks a reference; a document released before its nodes reads null pointers (violated)."
  },
  {
   "property": "C69",
   "status": "partial",
   "theorems": [
    "Dom.Html.Collect.C69_collections_partial",
    "Dom.Html.Collect.C69_no_root_violated",
    "Dom.Html.Collect.C69_applet_violated",
    "Dom.Html.Collect.C69_title",
    "Dom.Html.Collect.C69_body_partial",
    "Dom.Html.Collect.C69_no_body_violated",
    "Dom.Html.Collect.C69_applets_crash_violated",
    "Dom.Html.Collect.C69_body_released_violated",
    "Dom.Html.Create.C69_set_title",
    "Dom.Html.Create.C69_get_title"
   ],
   "note": "Title: proved (set title with its references; found title is the text of the first TITLE). Body: proved when there is one. Collections: exact members in document order. Violations proved: no document element fails an assertion, APPLET elements are never in applets, a childless OBJECT makes applets crash, nothing is stored when there is no body, a body that was set is not referenced."
  },
  {
   "property": "C70",
   "status": "partial",
   "theorems": [
    "Dom.Events.Live.C70_stopped_violated",
    "Dom.Events.Live.C70_cancelable_violated",
    "Dom.Events.Live.C70_target_violated",
    "Dom.Events.Live.C70_current_violated",
    "Dom.Events.Live.C70_event_state",
    "Dom.Events.Live.C70_default_actions_partial"
   ],
   "note": "target, current target and phase proved for every listener call; the order of the default-action callbacks proved; false after stopPropagation, for events that cannot be cancelled, and for asking for target or current target after the dispatch (violations proved); default actions are one callback per stage, or none"
  },
  {
   "property": "C71",
   "status": "partial",
   "theorems": [
    "Dom.Html.Forms.C71_elements_partial",
    "Dom.Html.Forms.C71_associate",
    "Dom.Html.Forms.C71_associate_other",
    "Dom.Html.Forms.C71_get_form_partial",
    "Dom.Html.Forms.C71_descendants_partial",
    "Dom.Html.Forms.C71_created_violated",
    "Dom.Html.Forms.C71_moved_violated",
    "Dom.Html.Forms.C71_svg_violated",
    "Dom.Html.Forms.C71_copied_violated",
    "Dom.Html.Forms.C71_get_form_violated",
    "Dom.Html.Forms.C71_typed"
   ],
   "note": "Proved: elements, number, item and named item are the associated controls in document order (C71_elements_partial), association moves a control and touches no other (C71_associate, C71_associate_other), the form given is the only form that lists the control (C71_get_form_partial), and, when the parser associated exactly the controls inside, they are those inside (C71_descendants_partial); after every history of creations, tree calls and associations the objects have the member (C71_typed). Refuted: that controls put inside by a program are elements (C71_created_violated), that those moved out or copied are not (C71_moved_violated, C71_copied_violated), SVG elements with such a name (C71_svg_violated), and a released form (C71_get_form_violated). Missing: less than 2^32-1 nodes is assumed."
  },
  {
   "property": "C72",
   "status": "partial",
   "theorems": [
    "Dom.Html.Control.C72_area_partial",
    "Dom.Html.Control.C72_area_finalise_partial",
    "Dom.Html.Control.C72_area_default_violated",
    "Dom.Html.Control.C72_area_leak_violated",
    "Dom.Html.Control.C72_input",
    "Dom.Html.Control.C72_input_finalise",
    "Dom.Html.Control.C72_input_copy",
    "Dom.Html.Control.C72_default_value_violated",
    "Dom.Html.Control.C72_click_violated"
   ],
   "note": "INPUT is proved for all histories as the code has it (the first value of the attribute, a click always checks); the deviations from the claim are C72_default_value_violated and C72_click_violated. For TEXTAREA the value, the references lost and the default value as the code fixes it are proved; that the default value is the text is refuted (C72_area_default_violated), that all references are given back too (C72_area_leak_violated). The text content is a new string each time; listeners of the events are not modelled; clones of TEXTAREA are not."
  },
  {
   "property": "C73",
   "status": "partial",
   "theorems": [
    "Dom.Events.Mods.C73_parse",
    "Dom.Events.Mods.C73_mouse",
    "Dom.Events.Mods.C73_keyboard_partial",
    "Dom.Events.Mods.C73_keys",
    "Dom.Events.Mods.C73_wheel_violated",
    "Dom.Events.Mods.C73_keyboard_violated",
    "Dom.Events.Mods.C73_unknown_violated"
   ],
   "note": "Proved: the list parser for all strings, without leaving the string (C73_parse), mouse events (C73_mouse), the agreement of the questions (C73_keys), and keyboard events with one initialisation (C73_keyboard_partial, which gives the keys of all initialisations together). Refuted: wheel events lose all modifiers (C73_wheel_violated), a keyboard event initialised again keeps old keys (C73_keyboard_violated), an unknown name writes no answer (C73_unknown_violated)."
  },
  {
   "property": "C74",
   "status": "partial",
   "theorems": [
    "Dom.Events.Obj.C74_event_partial",
    "Dom.Events.Obj.C74_keyboard",
    "Dom.Events.Obj.C74_create",
    "Dom.Events.Obj.C74_release_partial",
    "Dom.Events.Obj.C74_names",
    "Dom.Events.Obj.C74_names_released",
    "Dom.Events.Obj.C74_create_event_partial",
    "Dom.Events.Obj.C74_unknown_violated",
    "Dom.Events.Obj.C74_again_violated",
    "Dom.Events.Obj.C74_name_node_violated",
    "Dom.Events.Obj.C74_unwritten_violated",
    "Dom.Events.Obj.C74_time_violated",
    "Dom.Events.Obj.C74_namespace_violated"
   ],
   "note": "Proved: creation (C74_create, C74_names, C74_names_released; C74_create_event_partial for the names of types), every read after every history (C74_event_partial: exactly what the code answers, with the unwritten fields and the kept namespace as the code has them), the release of an event with at most one initialisation (C74_release_partial), the empty strings of keyboard events (C74_keyboard). Refuted: a second initialisation leaks the first strings (C74_again_violated), a name event never gives back its node (C74_name_node_violated), fields that were never written are read (C74_unwritten_violated, C74_time_violated), the namespace of before is kept (C74_namespace_violated), unknown type names make plain events (C74_unknown_violated)."
  },
  {
   "property": "C75",
   "status": "partial",
   "theorems": [
    "Dom.Xml.C75_safe",
    "Dom.Xml.(`C75_attribute_violated`),.C75_tree_partial",
    "Dom.Xml.(`C75_attribute_violated`),.C75_root_end_violated",
    "Dom.Xml.(`C75_attribute_violated`),.C75_identifiers_violated",
    "Dom.Xml.(`C75_attribute_violated`),.gets.C75_attribute_violated",
    "Dom.Xml.(`C75_attribute_violated`),.gets.C75_cdata_violated",
    "Dom.Xml.(`C75_attribute_violated`),.gets.C75_pi_violated",
    "Dom.Xml.(`C75_attribute_violated`),.gets.C75_refused_violated"
   ],
   "note": "Proved: safety, reference counts, and release for all sequences of events (C75_safe); the tree for all documents without the refuted cases (C75_tree_partial). Refuted for all documents or all data: the end of the root element is reported as a problem and later comments go into it (C75_root_end_violated), the identifiers of the document type are exchanged (C75_identifiers_violated), CDATA sections in pieces or empty (C75_cdata_violated), processing instructions are lost (C75_pi_violated), a refused element unbalances the tags (C75_refused_violated), an attribute without namespace after one of the same local name in a namespace is lost (C75_attribute_violated)."
  },
  {
   "property": "C76",
   "status": "partial",
   "theorems": [
    "Dom.Impl.C76_created",
    "Dom.Impl.C76_refused_names",
    "Dom.Impl.C76_refused_doctype",
    "Dom.Impl.C76_decision",
    "Dom.Impl.C76_doctype",
    "Dom.Impl.C76_doctype_name_violated"
   ],
   "note": "C76_created, C76_refused_names, C76_refused_doctype, C76_decision for createDocument with the core implementation; C76_doctype for createDocumentType with good names. Not covered: HTML documents. False for createDocumentType: it checks no name (C76_doctype_name_violated)."
  },
  {
   "property": "C77",
   "status": "partial",
   "theorems": [
    "Dom.Events.Ring.C77_history",
    "Dom.Events.Ring.C77_no_leak",
    "Dom.Events.Ring.C77_has",
    "Dom.Events.Ring.C77_iterate_partial",
    "Dom.Events.Ring.C77_iter_first_violated",
    "Dom.Events.Ring.C77_iter_order_violated",
    "Dom.Events.Ring.C77_iter_remove_violated"
   ],
   "note": "C77_history, C77_no_leak, C77_has: all careful sequences of calls, as a refinement of the lists on which C41 to C44 are proved. C77_iterate_partial: the iteration but for its order. False: the order of the iteration (C77_iter_first_violated, C77_iter_order_violated) and going on after a removal (C77_iter_remove_violated). Not covered: the references to the type strings."
  },
  {
   "property": "C78",
   "status": "partial",
   "theorems": [
    "Dom.Tree.C78_effect_partial",
    "Dom.Tree.C78_lost_violated",
    "Dom.Tree.C78_rest_violated",
    "Dom.Tree.C78_orphan_violated",
    "Dom.Tree.C78_readonly"
   ],
   "note": "C78_effect_partial: the exact effect in any sound state, for runs of any length between elements, comments, PIs or the ends of the list. C78_readonly: the refusal. False: the node stays in the tree (C78_lost_violated, in every state), the whole run goes (C78_rest_violated, in every state with two Text nodes before the node), a node without parent (C78_orphan_violated, in every state). Not covered: runs that go on inside CDATA sections or entity references."
  },
  {
   "property": "C79",
   "status": "partial",
   "theorems": [
    "Dom.Tree.C79_value",
    "Dom.Tree.C79_value_readonly",
    "Dom.Tree.C79_value_orphan_violated",
    "Dom.Tree.C79_set_existing",
    "Dom.Tree.C79_set_new",
    "Dom.Tree.C79_set_refused",
    "Dom.Tree.C79_remove_partial",
    "Dom.Tree.C79_remove_none",
    "Dom.Tree.C79_read_partial",
    "Dom.Tree.C79_get_partial",
    "Dom.Tree.C79_roundtrip",
    "Dom.Tree.C79_remove_stale_violated"
   ],
   "note": "setting by name is exact for every element and value, refused calls change nothing, and what was set is read back; removing proved except for an unreferenced attribute below whose value a node with siblings is referenced, where the code leaves dangling sibling pointers (violation proved); reading proved for values of Text nodes (entity references are not supported by the code); setting the value of an attribute without element follows a NULL pointer (violation proved)"
  },
  {
   "property": "C80",
   "status": "partial",
   "theorems": [
    "Dom.Hubbub.C80_live_partial",
    "Dom.Hubbub.C80_document",
    "Dom.Hubbub.C80_callback_partial",
    "Dom.Hubbub.C80_client_partial",
    "Dom.Hubbub.C80_parser_partial",
    "Dom.Hubbub.C80_needed_partial",
    "Dom.Hubbub.C80_no_leak_partial",
    "Dom.Hubbub.C80_element_partial",
    "Dom.Hubbub.C80_element_colon_violated",
    "Dom.Hubbub.C80_element_refused_violated",
    "Dom.Hubbub.C80_doctype_name",
    "Dom.Hubbub.C80_attribute_name",
    "Dom.Hubbub.C80_attribute_local"
   ],
   "note": "proved for the histories of `Story`, by induction; violations proved: tag names with a colon are split and those that end with the colon are refused. Missing: the callbacks that `Cb.Fine` excludes (the faults of C64), form_associate and the specialised parts of HTML elements"
  },
  {
   "property": "C81",
   "status": "partial",
   "theorems": [
    "Dom.Libxml.C81_safe_partial",
    "Dom.Libxml.C81_tree_partial",
    "Dom.Libxml.C81_attribute_violated",
    "Dom.Libxml.C81_class_violated",
    "Dom.Libxml.C81_link_violated",
    "Dom.Libxml.C81_pi_violated",
    "Dom.Libxml.C81_entity_violated",
    "Dom.Libxml.C81_client_violated"
   ],
   "note": "C81_tree_partial: the tree for every document without processing instructions and without the attributes and entities of the violations (declarations of namespaces do not become attributes); C81_safe_partial: no crash, no leak, for every sequence of events in which errors stay the last ones and outside of the violations. Violations: an attribute without namespace after one of the same local name in a namespace (use after free), an entity reference in \"class\" (null pointer), a comment after the declaration of an entity (leak, rest of the document lost), a warning after an error (null pointer), a client that takes an open element out (use after free), processing instructions (lost)."
  },
  {
   "property": "C82",
   "status": "partial",
   "theorems": [
    "Dom.Html.Refs.C82_references_partial",
    "Dom.Html.Refs.C82_no_fault_partial",
    "Dom.Html.Refs.C82_no_leak_partial",
    "Dom.Html.Refs.C82_section_insert_partial",
    "Dom.Html.Refs.C82_insert_cell_partial",
    "Dom.Html.Refs.C82_section_delete_partial",
    "Dom.Html.Refs.C82_delete_cell_partial",
    "Dom.Html.Refs.C82_create",
    "Dom.Html.Refs.C82_delete",
    "Dom.Html.Refs.C82_create_body_partial",
    "Dom.Html.Refs.C82_insert_row_partial",
    "Dom.Html.Refs.C82_delete_row_partial",
    "Dom.Html.Refs.C82_remove_option_partial",
    "Dom.Html.Refs.C82_set_violated",
    "Dom.Html.Refs.C82_set_leak_violated",
    "Dom.Html.Refs.C82_delete_row_leak_violated"
   ],
   "note": "Proved for all client histories that stay clear of the cases where the code is at fault (named in Step.Fine, each with a violation theorem here or in C53), and for a document that is referenced. Violated: set_caption, set_t_head and set_t_foot keep a reference for ever (C82_set_violated, C82_set_leak_violated); delete_row keeps a reference to the foot when the row is in none of the sections (C82_delete_row_leak_violated)."
  },
  {
   "property": "C83",
   "status": "partial",
   "theorems": [
    "Dom.Html.Places.C83_option_index_partial",
    "Dom.Html.Places.C83_option_index_code",
    "Dom.Html.Places.C83_cell_index_code",
    "Dom.Html.Places.C83_cell_index_partial",
    "Dom.Html.Places.C83_form",
    "Dom.Html.Places.C83_legend_partial",
    "Dom.Html.Places.C83_legend_violated",
    "Dom.Html.Places.C83_option_form_partial",
    "Dom.Html.Places.C83_content_violated",
    "Dom.Html.Places.C83_option_violated",
    "Dom.Html.Places.C83_cell_violated",
    "Dom.Html.Places.C83_group_violated",
    "Dom.Html.Places.C83_instruction_violated",
    "Dom.Html.Places.C83_nested_violated",
    "Dom.Html.Places.C83_legend_case_violated",
    "Dom.Html.Places.C83_content_case_violated"
   ],
   "note": "Exact description of what the code computes for every tree (C83_option_index_code, C83_cell_index_code, C83_form, C83_option_form_partial, C83_legend_partial). Violated: options in groups, processing instructions called option, cells of nested tables, options and cells without a parent (NULL dereference), legends outside of fieldsets, and the content document of an OBJECT, which is the document itself without a reference."
  },
  {
   "property": "C84",
   "status": "partial",
   "theorems": [
    "Dom.Oom.C84_document_partial",
    "Dom.Oom.C84_document_violated",
    "Dom.Oom.C84_html_partial",
    "Dom.Oom.C84_html_violated",
    "Dom.Oom.C84_html_uninit_violated",
    "Dom.Oom.C84_cases"
   ],
   "note": "Exact answer for every sequence of granted and refused requests. Documents: 39 requests; DOM_NO_MEM_ERR exactly if one is refused, nothing stays behind if it is one of the first 7, destroying a created document gives everything back. If request 7 to 38 is the first refused, 1, or 14 to 23 objects are lost (violated). HTML documents: 495 requests; if request 39 is the first refused, the clean-up reads arrays that were never written (violated); from 40 on 24 objects are lost (violated)."
  },
  {
   "property": "C85",
   "status": "partial",
   "theorems": [
    "Dom.Oom.C85_set_attribute_partial",
    "Dom.Oom.C85_class_partial",
    "Dom.Oom.C85_class_violated",
    "Dom.Oom.C85_class_name_violated",
    "Dom.Oom.C85_attach_partial",
    "Dom.Oom.C85_attach_violated",
    "Dom.Oom.C85_cases"
   ],
   "note": "Attributes other than class: complete for new attributes. class: complete if all requests are granted or one of the first five is refused. If the array for the class names is refused the name loses a reference it should keep (violated); if a class name cannot be interned an unwritten or NULL slot is given back (violated); attaching an attribute node class in that situation dereferences NULL (violated). Events and attributes that exist already are left out."
  },
  {
   "property": "C86",
   "status": "partial",
   "theorems": [
    "Dom.Oom.C86_copy_partial",
    "Dom.Oom.C86_attributes_violated",
    "Dom.Oom.C86_uninit_violated",
    "Dom.Oom.C86_lost_violated",
    "Dom.Oom.C86_cases"
   ],
   "note": "Complete if all requests are granted or the first is refused. A refusal while the attributes are copied gives a copy without attributes and no error (violated), or, if class was copied before, a read of unwritten memory (violated); a refusal for the class names loses all copied attributes (violated)."
  },
  {
   "property": "C87",
   "status": "partial",
   "theorems": [
    "Dom.Oom.C87_html_parser_partial",
    "Dom.Oom.C87_html_parser_violated",
    "Dom.Oom.C87_encoding_violated",
    "Dom.Oom.C87_fragment_parser",
    "Dom.Oom.C87_libxml_partial",
    "Dom.Oom.C87_libxml_violated",
    "Dom.Oom.C87_expat_partial",
    "Dom.Oom.C87_cases"
   ],
   "note": "Proved for every sequence of refusals: fragment parsers in full; HTML parsers except when the string \"id\" is refused (the whole document is lost, C87_html_parser_violated) and when a charset is given (the first encoding string is lost although nothing is refused, C87_encoding_violated); XML parsers with expat up to the losses of C84; with libxml except that a failure of the document reads the parser after freeing it (C87_libxml_violated). Hubbub, libxml and expat are one block each."
  },
  {
   "property": "C88",
   "status": "partial",
   "theorems": [
    "Dom.Oom.C88_names_partial",
    "Dom.Oom.C88_retry_violated",
    "Dom.Oom.C88_code_violated",
    "Dom.Oom.C88_cases"
   ],
   "note": "Proved for one try against every sequence of refusals. Two tries lose the strings of the first (C88_retry_violated), and the failure is reported as DOM_NAMESPACE_ERR by document creation (C88_code_violated)."
  },
  {
   "property": "C89",
   "status": "partial",
   "theorems": [
    "Dom.Html.DocLife.C89_life_partial",
    "Dom.Html.DocLife.C89_read_violated",
    "Dom.Html.DocLife.C89_create_violated",
    "Dom.Html.DocLife.C89_title_violated",
    "Dom.Html.DocLife.C89_cases"
   ],
   "note": "Holds for histories that, once the last reference to the document was given up, make no element of it, read no property of its elements, do not ask for an unset title, and do not take it back from a node if it had a title. For every one of the excluded calls the violation is proved: null pointer for the first three, a second release of the title for the last."
  },
  {
   "property": "C90",
   "status": "partial",
   "theorems": [
    "Dom.Oom.Tok.C90_refs",
    "Dom.Oom.Tok.C90_answers_partial",
    "Dom.Oom.Tok.C90_add_violated",
    "Dom.Oom.Tok.C90_remove_violated",
    "Dom.Oom.Tok.C90_late_violated",
    "Dom.Oom.Tok.C90_cases"
   ],
   "note": "Memory safety and the accounts are proved for every sequence of calls and every pattern of refusals (C90_refs). The answers are proved for clients whose changing calls report success (C90_answers_partial). Proved violated: an add that fails leaves the word in the list, so a retry reports success without writing the attribute; a remove that cannot read the attribute reports success; an error reported after the change was made. Values are lists of words (bytes: C49); the requests of dom_element_set_attribute form three groups."
  },
  {
   "property": "C91",
   "status": "partial",
   "theorems": [
    "Dom.Oom.Chars.C91_event",
    "Dom.Oom.Chars.C91_refused",
    "Dom.Oom.Chars.C91_edit_partial",
    "Dom.Oom.Chars.C91_forgotten_violated",
    "Dom.Oom.Chars.C91_late_violated",
    "Dom.Oom.Chars.C91_split_refused",
    "Dom.Oom.Chars.C91_split_partial",
    "Dom.Oom.Chars.C91_split_lost_violated",
    "Dom.Oom.Chars.C91_split_cut_violated",
    "Dom.Oom.Chars.C91_whole_partial",
    "Dom.Oom.Chars.C91_whole_violated",
    "Dom.Oom.Chars.C91_merge_partial",
    "Dom.Oom.Chars.C91_merge_violated",
    "Dom.Oom.Chars.C91_cases"
   ],
   "note": "Proved for all memories, places and texts: no undefined behaviour, success exactly if all requests are granted, the right text and exact reference counts on success, nothing changed or kept if the string is refused, events neutral for any number of listening ancestors. The code breaks the rest: insert, delete and replace keep the new string when the first event is refused, every change reports an error for the second event after the change is made, splitText then loses the second part of the text, getWholeText keeps the text on the right, joining keeps the collected text."
  },
  {
   "property": "C92",
   "status": "partial",
   "theorems": [
    "Dom.Oom.Deep.C92_clone_partial",
    "Dom.Oom.Deep.C92_lost_violated",
    "Dom.Oom.Deep.C92_every_node_violated",
    "Dom.Oom.Deep.C92_cases"
   ],
   "note": "C92_clone_partial: no undefined behaviour, success exactly if all requests are granted, the copy is equal to the source and only its references are new, and a refused block leaves nothing. C92_lost_violated and C92_every_node_violated: if an event about the insertion of a copied child is refused, the whole copy of that child stays in memory with a reference nobody has."
  },
  {
   "property": "C93",
   "status": "partial",
   "theorems": [
    "Dom.Tree.C93_insert_partial",
    "Dom.Tree.C93_insert_exact",
    "Dom.Tree.C93_replace",
    "Dom.Tree.C93_silent_violated",
    "Dom.Tree.C93_remove_partial",
    "Dom.Tree.C93_remove_violated",
    "Dom.Tree.C93_insert_violated",
    "Dom.Tree.C93_fragment_violated",
    "Dom.Tree.C93_enough",
    "Dom.Tree.C93_fragment_freed_violated",
    "Dom.Tree.C93_cases"
   ],
   "note": "Proved for all trees and all patterns of refusals: with memory enough the functions are those of Verif/Tree/Model.lean (C93_enough); replaceChild is never stopped and its nodes are always the same (C93_replace); an insertion of one node ends with the node in its place in every case, exactly when it is told is characterised by C93_insert_exact; a removal ends with the nodes of before or with those of success (C93_remove_partial). The claim is false of the code: C93_insert_violated (NO_MEM, but the node is in the tree), C93_remove_violated (NO_MEM, but the node is out and a reference was taken), C93_fragment_violated (after NO_MEM the links fit no tree), C93_fragment_freed_violated (use after free and failed assertion that follow from it), C93_silent_violated (success, but no event was raised). Not covered: listeners (each event asks for one block only)."
  },
  {
   "property": "C94",
   "status": "partial",
   "theorems": [
    "Dom.Html.Parts.C94_fields_partial",
    "Dom.Html.Parts.C94_written_partial",
    "Dom.Html.Parts.C94_flags_violated",
    "Dom.Html.Parts.C94_selected_violated"
   ],
   "note": "C94_fields_partial and C94_written_partial for all fields but the flags of copied scripts, which nobody writes (C94_flags_violated); SELECT's selected is never written (C94_selected_violated)."
  },
  {
   "property": "C95",
   "status": "partial",
   "theorems": [
    "Dom.Parse.Charset.C95_references_partial",
    "Dom.Parse.Charset.C95_lost_violated",
    "Dom.Parse.Charset.C95_report",
    "Dom.Parse.Charset.C95_restart",
    "Dom.Parse.Charset.C95_document",
    "Dom.Parse.Charset.C95_default_violated",
    "Dom.Parse.Charset.C95_fragment_violated",
    "Dom.Parse.Charset.C95_errors",
    "Dom.Parse.Charset.C95_error_lost_violated"
   ],
   "note": "Proved: what a parser reports (C95_report), when Hubbub is told to start again (C95_restart), the encoding and quirks mode of every document after every call (C95_document), the errors (C95_errors), and that no dangling string is used (C95_references_partial). Missing because the code is wrong: references are lost whenever a parser replaces an encoding (C95_lost_violated), parser and document disagree by default (C95_default_violated), fragment parsers (C95_fragment_violated), and one error number becomes success (C95_error_lost_violated)."
  },
  {
   "property": "C96",
   "status": "proved",
   "theorems": [
    "Dom.Tree.C96_step",
    "Dom.Tree.C96_history",
    "Dom.Tree.C96_held"
   ],
   "note": "For every function of the model's client (C96_step), every history after a reachable memory (C96_history) and every node held throughout (C96_held). The document of a DocumentType is outside the claim. That names of nodes are not reused is a device of the model and not claimed of the code."
  },
  {
   "property": "C97",
   "status": "partial",
   "theorems": [
    "Dom.Tree.C97_no_fault_partial",
    "Dom.Tree.C97_counts",
    "Dom.Tree.C97_no_leak_partial",
    "Dom.Tree.C97_open",
    "Dom.Tree.C97_live",
    "Dom.Tree.C97_remove",
    "Dom.Tree.C97_set_partial",
    "Dom.Tree.C97_set_refused",
    "Dom.Tree.C97_set_first_violated"
   ],
   "note": "Proved: the counts of maps and nodes (C97_counts), when a map is made (C97_open), that maps are live (C97_live), removal (C97_remove), what setting refuses (C97_set_refused). Partial: absence of faults (C97_no_fault_partial) and of leaks (C97_no_leak_partial) for the clients of Mindful, which leave out the faults of the tree functions that C46 and C47 show and replacing the first attribute; setting (C97_set_partial) without replacing the first attribute, which reads freed memory (C97_set_first_violated). Missing: refused memory."
  },
  {
   "property": "C98",
   "status": "partial",
   "theorems": [
    "Dom.Tree.C98_no_reference",
    "Dom.Tree.C98_no_fault_partial",
    "Dom.Tree.C98_stays",
    "Dom.Tree.C98_told",
    "Dom.Tree.C98_unset",
    "Dom.Tree.C98_held_partial",
    "Dom.Tree.C98_dangling_violated"
   ],
   "note": "Proved: what is answered (C98_told, C98_stays), that no reference is given or taken (C98_no_reference), absence of faults for heedful clients (C98_no_fault_partial), and that the answer is in memory as long as the client has a reference to it (C98_held_partial). Missing because the code is wrong: otherwise the pointer may dangle (C98_dangling_violated)."
  },
  {
   "property": "C99",
   "status": "partial",
   "theorems": [
    "Dom.Oom.Doctype.C99_create",
    "Dom.Oom.Doctype.C99_null",
    "Dom.Oom.Doctype.C99_name",
    "Dom.Oom.Doctype.C99_ids",
    "Dom.Oom.Doctype.C99_destroy",
    "Dom.Oom.Doctype.C99_life",
    "Dom.Oom.Doctype.C99_unchecked_violated",
    "Dom.Oom.Doctype.C99_cases"
   ],
   "note": "C99_create, C99_name, C99_ids, C99_destroy, C99_life, C99_null: as stated. C99_unchecked_violated: names are not checked, contrary to the comment of the function. Not modelled: strings that are not UTF-8, the first creation of the namespace strings, the tree around the document type."
  }
 ]
}