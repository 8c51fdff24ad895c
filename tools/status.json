{
 "C04": {
  "note": "index exact for all strings of decodable characters; at exact for all indices below 2^32-1, and the wrap at 2^32-1 on the empty string is shown as a violation",
  "status": "proved"
 },
 "C05": {
  "note": "false of the code (violation proved): results are one too large and most occurrences are missed; absence and maximality of position-1 are proved",
  "status": "partial"
 },
 "C09": {
  "note": "all operations for all contents, offsets and counts; appendData on a node without data trips an assertion (violation proved); result size bounded by 2^32 bytes",
  "status": "partial"
 },
 "C10": {
  "note": "",
  "status": "proved"
 },
 "C100": {
  "note": "For names judged by arbitrary rules, and (C100_names, C100_qnames, C100_qnames_none) for those of the code, joined with C14 and C16; strings without malformed UTF-8, and nodes without children, attributes and user data. Elements in the namespace of SVG in HTML documents are missing: C100_svg_violated and C100_svg_refused_violated show that they give back the reference of the caller.",
  "status": "partial"
 },
 "C101": {
  "note": "proved for all methods but three; violations proved: blur of input elements and blur and focus of select elements bubble (C101_bubbles_violated) and can be cancelled (C101_cancelable_violated), a click checks although a listener prevents it (C101_prevented_violated; that it checks whatever the type of the control is in C72). Missing: listeners that change the tree, and for the order of calls listeners that change the lists, and default actions; memory that runs out is in C102",
  "status": "partial"
 },
 "C102": {
  "note": "proved for all kinds but keyboard events, and for keyboard events when the block is refused or everything is granted; violation proved: a keyboard event whose empty string is refused leaves its block allocated (C102_keyboard_violated). Missing: listeners that use memory, the fields set by the init functions (C74)",
  "status": "partial"
 },
 "C103": {
  "note": "Counts do not wrap around; strings are lists of characters; the client has references to the root and the strings it passes (kept as in the start of the history) and passes a tag name where one is needed (the assertion otherwise is C59); destruction of nodes by a last reference is not part of this model.",
  "status": "proved"
 },
 "C104": {
  "note": "The length of `applets` is too small and its items move up without an error if the request for an OBJECT with an APPLET is refused (C104_applets_violated, C104_applets_item_violated), and a document without document element fails an assertion (C104_no_root_violated); everything else holds for all histories. The walk over the tree is C35, the tests are C69; counts do not wrap around.",
  "status": "partial"
 },
 "C105": {
  "note": "Setting a key without entry to NULL needs memory, can answer DOM_NO_MEM_ERR, and leaves an entry whose handler is called later (C105_null_violated); everything else holds for all histories. The pointers between entries are C45; handlers do not call back into the node.",
  "status": "partial"
 },
 "C106": {
  "note": "One target; a client registers only listeners it has a reference to; the pointers of the ring are C77; which of several registrations a removal without type takes, and the order after a removal, is C41.",
  "status": "proved"
 },
 "C11": {
  "note": "conservation proved; split at the end is refused and the new node is not inserted (violations proved)",
  "status": "partial"
 },
 "C12": {
  "note": "at most one further text on each side; longer runs are cut (violation proved)",
  "status": "partial"
 },
 "C13": {
  "note": "the six tables are sorted and disjoint (checked by kernel computation over the whole tables, which are data of the code); the search is proved for every sorted table",
  "status": "proved"
 },
 "C14": {
  "note": "Name: exact for all strings; NCName of the code is narrower for non-ASCII starts (violation proved)",
  "status": "partial"
 },
 "C15": {
  "note": "accepted exactly without white space, '\"', '\\'', '>', '/', '='; NUL and other control characters are accepted (violation proved)",
  "status": "partial"
 },
 "C16": {
  "note": "exact decision with a namespace (up to the narrower NCName), lossless split always; without a namespace ':a' and 'xmlns' are accepted (violations proved)",
  "status": "partial"
 },
 "C17": {
  "note": "for fewer than 2^32 entries; lawful vtable (equal keys have equal hashes); destroy not modelled",
  "status": "proved"
 },
 "C18": {
  "note": "client clone functions succeed and preserve key equality",
  "status": "proved"
 },
 "C19": {
  "note": "proved for every history of the modelled calls except: an empty fragment replacing a node with siblings (violation proved), an attribute of p given as child of p; after releases: proved when no referenced node with siblings loses its parent by the release, else false (violation proved)",
  "status": "partial"
 },
 "C20": {
  "note": "effect, decision and self case for every well-formed forest; attributes of p itself excluded as reference node",
  "status": "proved"
 },
 "C21": {
  "note": "effect and decision; the code refuses to remove Element/DocumentType children of a Document with NOT_SUPPORTED",
  "status": "proved"
 },
 "C22": {
  "note": "effect and decision except for an empty fragment replacing a node with siblings (violation proved)",
  "status": "partial"
 },
 "C23": {
  "note": "exact for everything but refused fragment insertions, which lose the pending mark of the fragment (violation proved)",
  "status": "partial"
 },
 "C24": {
  "note": "for every history of the modelled calls satisfying Call.Ok",
  "status": "proved"
 },
 "C25": {
  "note": "types proved for all histories; one root needs that fragments given to a Document have at most one element (violation proved otherwise)",
  "status": "partial"
 },
 "C26": {
  "note": "for every history of creation and tree mutation calls (import/adopt: see C27)",
  "status": "proved"
 },
 "C27": {
  "note": "within one document: the result is new, of the document with everything below it, has the shape of the original and can be inserted; nothing old changes (import) or only the original leaves its parent (adopt of elements and fragments); false otherwise: nodes of other documents keep their owner, texts are adopted as NULL, adopting an attribute drops the children of its element (violations proved)",
  "status": "partial"
 },
 "C28": {
  "note": "all node types for which the code has a working copy function: new nodes only, same shape, original untouched; Document and DocumentType refused; false for ProcessingInstructions and for shallow clones of attributes (violations proved); HTML elements and user data handlers not included",
  "status": "partial"
 },
 "C29": {
  "note": "exact in terms of parent links (an attribute counts as below its element); equal to the subtree relation outside attributes",
  "status": "proved"
 },
 "C30": {
  "note": "reading exact for every node kind; writing proved with the release of the old children: exact child list, unreferenced children freed, reference counts and soundness of the memory kept; an empty string always leaves an empty Text child, and held nodes with siblings below a released child keep dangling sibling pointers (violations proved)",
  "status": "partial"
 },
 "C31": {
  "note": "after a successful normalize no adjacent Text siblings in the nodes the code looks into, nothing else taken out, other nodes untouched; a tree without adjacent texts is unchanged; false otherwise: text is duplicated, first children are not entered, empty texts stay (violations proved)",
  "status": "partial"
 },
 "C32": {
  "note": "length exact for every list; item exact for all indices below 2^32-1 except namespace lists asked with a NULL namespace; both exceptions are shown as violations. The sharing of lists (get_nodelist) is C59",
  "status": "partial"
 },
 "C33": {
  "note": "search proved for documents with at most one Element child, with the ids read from the attributes of the elements; a second root element is never searched (violation proved)",
  "status": "partial"
 },
 "C34": {
  "note": "the whole walk equals the recursive visit for every callback; calls and tour derived. The callback does not change the tree",
  "status": "proved"
 },
 "C35": {
  "note": "length, item, namedItem for collections whose root has a child or is the last sibling, and indices below 2^32-1; also for collections whose test and names are read from the attributes (C35_by_attributes_partial) and for the options of a select. Childless root and last index are shown as violations.",
  "status": "partial"
 },
 "C36": {
  "note": "set/get/has/remove, order and frame for every element state, by name and by namespace and qualified name (with its refusals); after removal without namespace only when one entry has the local name (violation proved otherwise); hasAttributes is true of every element (violation proved)",
  "status": "partial"
 },
 "C37": {
  "note": "uniqueness for every history of fair calls; setAttributeNode outside the stated limits breaks it (violations proved); length, item, named items and removal through the map exact",
  "status": "partial"
 },
 "C38": {
  "note": "install, replace, refusal and removal; replacing the first attribute is a use after free, prefixed attributes are not found (violations proved)",
  "status": "partial"
 },
 "C39": {
  "note": "types are fixed along every history, wrong types refused, values read back; first write of a bool and string reads of numbers are violations (proved)",
  "status": "partial"
 },
 "C40": {
  "note": "exact when the attribute is added or removed; changing it leaves the classes stale, only spaces separate (violations proved)",
  "status": "partial"
 },
 "C41": {
  "note": "the set of registrations is exact; order only when removals hit the oldest or newest registration (violation proved for a removal in the middle); NULL type removal excluded from the multiset statement",
  "status": "partial"
 },
 "C42": {
  "note": "exact calls for listeners that change neither listener lists nor the tree; for listeners that do anything as careful clients: only along the path, in order, only registered ones; false for listeners that remove or add listeners (violations proved)",
  "status": "partial"
 },
 "C43": {
  "note": "exact for listeners that change neither listener lists nor the tree; C42_any_listeners_partial has the same about stopping and preventing for listeners that do anything",
  "status": "proved"
 },
 "C44": {
  "note": "false of the code: a finished event is never accepted again (violation proved for every completed dispatch)",
  "status": "partial"
 },
 "C45": {
  "note": "",
  "status": "proved"
 },
 "C46": {
  "note": "every history of a client that creates, moves, removes, clones, looks around, references and releases nodes, edits character data, splits Text nodes, sets text content and sets and removes attributes by name: no fault, and referenced nodes are in memory, with the faulty cases left out and each shown to fault (stale siblings after release, document freed under an inserted fragment, reused fragment, clone of a ProcessingInstruction, clone of a DocumentType without document, appending to NULL data, setting the value of an attribute without element); dispatch of events to listeners that use the tree: no fault if the caller has references to the path; strings and HTML parts only in their own modules",
  "status": "partial"
 },
 "C47": {
  "note": "every such history (also with edits of character data, text content and attributes): what is in memory is needed for a referenced node, all is freed when all references are given up; the effect of the last release is proved exactly; false when an inserted fragment is used again, after a deep import and after normalize (violations proved); user data handlers and HTML documents not included",
  "status": "partial"
 },
 "C48": {
  "note": "false of the code: reinserting an inserted fragment trips an assertion (violation proved); the document of a held inserted fragment may be freed (violation proved under C46)",
  "status": "partial"
 },
 "C49": {
  "note": "exact for ASCII values with spaces as the only white space and valid words; the list misses a direct write of what it wrote last, cuts off non-ASCII values, splits only at spaces and checks no words (violations proved)",
  "status": "partial"
 },
 "C50": {
  "note": "insertion events exact, failures silent; removal events come twice and replacement raises none (violations proved)",
  "status": "partial"
 },
 "C51": {
  "note": "all four calls on HTML elements and on SVG elements with unknown tags; SVG elements with known tags fold (violation proved)",
  "status": "partial"
 },
 "C52": {
  "note": "Integer properties (signed, unsigned) are proved for every 32-bit value. Boolean properties: proved when the attribute found has no prefix and is the only one with that local name; violated otherwise. Canvas sizes: 2^32-1 is reported as the default (violated).",
  "status": "partial"
 },
 "C53": {
  "note": "Reading, inserting and deleting rows are proved for sections and for tables whose sections come as one head, bodies, at most one foot, with no nested rows and no empty section before a sibling; the first row of a table without rows, and creating, deleting and setting sections are proved for all tables. Without a head the code dereferences NULL; the rows come in document order; nested rows are counted; set_t_head asks for CAPTION (violated).",
  "status": "partial"
 },
 "C54": {
  "note": "Reading selectedIndex and value, setting an index in range and setting the value are proved for select elements that have children or no next sibling and fewer than 2^31 options. Setting leaves earlier options selected, setting the value overwrites the selected option instead of selecting, out-of-range dereferences NULL, -1 marks the select element itself, and an empty select followed by a sibling is walked out of (violated).",
  "status": "partial"
 },
 "C55": {
  "note": "events exact for successful calls; a refusing attribute still raises an event (violation proved)",
  "status": "partial"
 },
 "C56": {
  "note": "Options without element children: the text with white space stripped and collapsed. Options with arbitrary nested content (C56_shown_partial): text outside of HTML and SVG script elements, each element stripped on its own; the stripping joins words (violated).",
  "status": "partial"
 },
 "C57": {
  "note": "\"equal\" is only said of equal nodes, and different type, name, prefix, namespace or value give \"different\"; false otherwise: two elements are equal only if they are the same node, any other node faults with a NULL attribute map (violations proved for all nodes)",
  "status": "partial"
 },
 "C58": {
  "note": "isDefaultNamespace and the lookup without prefix for every node of every reachable tree and attribute memory; the lookup of a prefix where nothing is declared; false otherwise: declared prefixes are not found, a default declaration answers for every prefix, Documents find nothing, an empty declaration gives the empty string, and lookupPrefix calls a function of another type (violations proved)",
  "status": "partial"
 },
 "C59": {
  "note": "the 32-bit reference count is assumed not to overflow; a request by tag name without one ends in the code's assertion (C59_get_safe); allocation succeeds",
  "status": "proved"
 },
 "C60": {
  "note": "names, creation, the prefix/namespace invariant and setting the prefix for all reachable trees; a prefix that is not a name is accepted and setAttributeNS drops the prefix (violations proved)",
  "status": "partial"
 },
 "C61": {
  "note": "stored value, frame and refusals for all reachable trees; no mutation event is raised (violation proved)",
  "status": "partial"
 },
 "C62": {
  "note": "for every node of every reachable tree",
  "status": "proved"
 },
 "C63": {
  "note": "declaring and refusal proved; undeclaring leaves the id as it was (violation proved)",
  "status": "partial"
 },
 "C64": {
  "note": "Violations proved: appending a Text that has a parent duplicates its text instead of moving it (C64_append_attached_violated), get_parent with element_only dereferences NULL for a parentless node (C64_get_parent_violated), reparent_children onto the same node never ends (C64_reparent_self_violated) and a failing reparent_children leaves the tree changed (C64_reparent_fail_violated). Missing: form_associate; the creating callbacks and attributes with a namespace are in C80.",
  "status": "partial"
 },
 "C65": {
  "note": "All of it is proved for the calls listed with `dom_string_whitespace_op` restricted to strings that are not empty. For an empty string the code takes a reference nobody gives back (string.c:1048-1050), `C65_whitespace_violated`. The bytes stay readable through the string, but not at the address dom_string_data returned before interning, `C65_data_violated`. libwapcaplet is represented by its documented contract.",
  "status": "partial"
 },
 "C66": {
  "note": "decimal numbers without leading zero that fit, and absent attributes, exact; leading zeros are read as octal, 0x as hexadecimal, garbage as 0, large numbers modulo 2^32 (violations proved)",
  "status": "partial"
 },
 "C67": {
  "note": "The index in the section is proved for every row with a parent; the index in the table for tables of one head, bodies, at most one foot in this order; cells for rows whose TD descendants are all children. Detached rows dereference NULL, a foot before the body gives two rows the same index, rows directly in the table have no index, TH is not a cell, cells of nested tables count (violated).",
  "status": "partial"
 },
 "C68": {
  "note": "Names, types and references proved for names without a namespace and for namespaces other than SVG. In the SVG namespace references are given back that were never taken; names are not validated; finalised namespaces make NULL the SVG namespace; the question for lower-case attribute names leaks a reference; a document released before its nodes reads null pointers (violated).",
  "status": "partial"
 },
 "C69": {
  "note": "Title: proved (set title with its references; found title is the text of the first TITLE). Body: proved when there is one. Collections: exact members in document order. Violations proved: no document element fails an assertion, APPLET elements are never in applets, a childless OBJECT makes applets crash, nothing is stored when there is no body, a body that was set is not referenced.",
  "status": "partial"
 },
 "C70": {
  "note": "target, current target and phase proved for every listener call; the order of the default-action callbacks proved; false after stopPropagation, for events that cannot be cancelled, and for asking for target or current target after the dispatch (violations proved); default actions are one callback per stage, or none",
  "status": "partial"
 },
 "C71": {
  "note": "Proved: elements, number, item and named item are the associated controls in document order (C71_elements_partial), association moves a control and touches no other (C71_associate, C71_associate_other), the form given is the only form that lists the control (C71_get_form_partial), and, when the parser associated exactly the controls inside, they are those inside (C71_descendants_partial); after every history of creations, tree calls and associations the objects have the member (C71_typed). Refuted: that controls put inside by a program are elements (C71_created_violated), that those moved out or copied are not (C71_moved_violated, C71_copied_violated), SVG elements with such a name (C71_svg_violated), and a released form (C71_get_form_violated). Missing: less than 2^32-1 nodes is assumed.",
  "status": "partial"
 },
 "C72": {
  "note": "INPUT is proved for all histories as the code has it (the first value of the attribute, a click always checks); the deviations from the claim are C72_default_value_violated and C72_click_violated. For TEXTAREA the value, the references lost and the default value as the code fixes it are proved; that the default value is the text is refuted (C72_area_default_violated), that all references are given back too (C72_area_leak_violated). The text content is a new string each time; listeners of the events are not modelled; clones of TEXTAREA are not.",
  "status": "partial"
 },
 "C73": {
  "note": "Proved: the list parser for all strings, without leaving the string (C73_parse), mouse events (C73_mouse), the agreement of the questions (C73_keys), and keyboard events with one initialisation (C73_keyboard_partial, which gives the keys of all initialisations together). Refuted: wheel events lose all modifiers (C73_wheel_violated), a keyboard event initialised again keeps old keys (C73_keyboard_violated), an unknown name writes no answer (C73_unknown_violated).",
  "status": "partial"
 },
 "C74": {
  "note": "Proved: creation (C74_create, C74_names, C74_names_released; C74_create_event_partial for the names of types), every read after every history (C74_event_partial: exactly what the code answers, with the unwritten fields and the kept namespace as the code has them), the release of an event with at most one initialisation (C74_release_partial), the empty strings of keyboard events (C74_keyboard). Refuted: a second initialisation leaks the first strings (C74_again_violated), a name event never gives back its node (C74_name_node_violated), fields that were never written are read (C74_unwritten_violated, C74_time_violated), the namespace of before is kept (C74_namespace_violated), unknown type names make plain events (C74_unknown_violated).",
  "status": "partial"
 },
 "C75": {
  "note": "Proved: safety, reference counts, and release for all sequences of events (C75_safe); the tree for all documents without the refuted cases (C75_tree_partial). Refuted for all documents or all data: the end of the root element is reported as a problem and later comments go into it (C75_root_end_violated), the identifiers of the document type are exchanged (C75_identifiers_violated), CDATA sections in pieces or empty (C75_cdata_violated), processing instructions are lost (C75_pi_violated), a refused element unbalances the tags (C75_refused_violated), an attribute without namespace after one of the same local name in a namespace is lost (C75_attribute_violated).",
  "status": "partial"
 },
 "C76": {
  "note": "C76_created, C76_refused_names, C76_refused_doctype, C76_decision for createDocument with the core implementation; C76_doctype for createDocumentType with good names. Not covered: HTML documents. False for createDocumentType: it checks no name (C76_doctype_name_violated).",
  "status": "partial"
 },
 "C77": {
  "note": "C77_history, C77_no_leak, C77_has: all careful sequences of calls, as a refinement of the lists on which C41 to C44 are proved. C77_iterate_partial: the iteration but for its order. False: the order of the iteration (C77_iter_first_violated, C77_iter_order_violated) and going on after a removal (C77_iter_remove_violated). Not covered: the references to the type strings.",
  "status": "partial"
 },
 "C78": {
  "note": "C78_effect_partial: the exact effect in any sound state, for runs of any length between elements, comments, PIs or the ends of the list. C78_readonly: the refusal. False: the node stays in the tree (C78_lost_violated, in every state), the whole run goes (C78_rest_violated, in every state with two Text nodes before the node), a node without parent (C78_orphan_violated, in every state). Not covered: runs that go on inside CDATA sections or entity references.",
  "status": "partial"
 },
 "C79": {
  "note": "setting by name is exact for every element and value, refused calls change nothing, and what was set is read back; removing proved except for an unreferenced attribute below whose value a node with siblings is referenced, where the code leaves dangling sibling pointers (violation proved); reading proved for values of Text nodes (entity references are not supported by the code); setting the value of an attribute without element follows a NULL pointer (violation proved)",
  "status": "partial"
 },
 "C80": {
  "note": "proved for the histories of `Story`, by induction; violations proved: tag names with a colon are split and those that end with the colon are refused. Missing: the callbacks that `Cb.Fine` excludes (the faults of C64), form_associate and the specialised parts of HTML elements",
  "status": "partial"
 },
 "C81": {
  "note": "C81_tree_partial: the tree for every document without processing instructions and without the attributes and entities of the violations (declarations of namespaces do not become attributes); C81_safe_partial: no crash, no leak, for every sequence of events in which errors stay the last ones and outside of the violations. Violations: an attribute without namespace after one of the same local name in a namespace (use after free), an entity reference in \"class\" (null pointer), a comment after the declaration of an entity (leak, rest of the document lost), a warning after an error (null pointer), a client that takes an open element out (use after free), processing instructions (lost).",
  "status": "partial"
 },
 "C82": {
  "note": "Proved for all client histories that stay clear of the cases where the code is at fault (named in Step.Fine, each with a violation theorem here or in C53), and for a document that is referenced. Violated: set_caption, set_t_head and set_t_foot keep a reference for ever (C82_set_violated, C82_set_leak_violated); delete_row keeps a reference to the foot when the row is in none of the sections (C82_delete_row_leak_violated).",
  "status": "partial"
 },
 "C83": {
  "note": "Exact description of what the code computes for every tree (C83_option_index_code, C83_cell_index_code, C83_form, C83_option_form_partial, C83_legend_partial). Violated: options in groups, processing instructions called option, cells of nested tables, options and cells without a parent (NULL dereference), legends outside of fieldsets, and the content document of an OBJECT, which is the document itself without a reference.",
  "status": "partial"
 },
 "C84": {
  "note": "Exact answer for every sequence of granted and refused requests. Documents: 39 requests; DOM_NO_MEM_ERR exactly if one is refused, nothing stays behind if it is one of the first 7, destroying a created document gives everything back. If request 7 to 38 is the first refused, 1, or 14 to 23 objects are lost (violated). HTML documents: 495 requests; if request 39 is the first refused, the clean-up reads arrays that were never written (violated); from 40 on 24 objects are lost (violated).",
  "status": "partial"
 },
 "C85": {
  "note": "Attributes other than class: complete for new attributes. class: complete if all requests are granted or one of the first five is refused. If the array for the class names is refused the name loses a reference it should keep (violated); if a class name cannot be interned an unwritten or NULL slot is given back (violated); attaching an attribute node class in that situation dereferences NULL (violated). Events and attributes that exist already are left out.",
  "status": "partial"
 },
 "C86": {
  "note": "Complete if all requests are granted or the first is refused. A refusal while the attributes are copied gives a copy without attributes and no error (violated), or, if class was copied before, a read of unwritten memory (violated); a refusal for the class names loses all copied attributes (violated).",
  "status": "partial"
 },
 "C87": {
  "note": "Proved for every sequence of refusals: fragment parsers in full; HTML parsers except when the string \"id\" is refused (the whole document is lost, C87_html_parser_violated) and when a charset is given (the first encoding string is lost although nothing is refused, C87_encoding_violated); XML parsers with expat up to the losses of C84; with libxml except that a failure of the document reads the parser after freeing it (C87_libxml_violated). Hubbub, libxml and expat are one block each.",
  "status": "partial"
 },
 "C88": {
  "note": "Proved for one try against every sequence of refusals. Two tries lose the strings of the first (C88_retry_violated), and the failure is reported as DOM_NAMESPACE_ERR by document creation (C88_code_violated).",
  "status": "partial"
 },
 "C89": {
  "note": "Holds for histories that, once the last reference to the document was given up, make no element of it, read no property of its elements, do not ask for an unset title, and do not take it back from a node if it had a title. For every one of the excluded calls the violation is proved: null pointer for the first three, a second release of the title for the last.",
  "status": "partial"
 },
 "C90": {
  "note": "Memory safety and the accounts are proved for every sequence of calls and every pattern of refusals (C90_refs). The answers are proved for clients whose changing calls report success (C90_answers_partial). Proved violated: an add that fails leaves the word in the list, so a retry reports success without writing the attribute; a remove that cannot read the attribute reports success; an error reported after the change was made. Values are lists of words (bytes: C49); the requests of dom_element_set_attribute form three groups.",
  "status": "partial"
 },
 "C91": {
  "note": "Proved for all memories, places and texts: no undefined behaviour, success exactly if all requests are granted, the right text and exact reference counts on success, nothing changed or kept if the string is refused, events neutral for any number of listening ancestors. The code breaks the rest: insert, delete and replace keep the new string when the first event is refused, every change reports an error for the second event after the change is made, splitText then loses the second part of the text, getWholeText keeps the text on the right, joining keeps the collected text.",
  "status": "partial"
 },
 "C92": {
  "note": "C92_clone_partial: no undefined behaviour, success exactly if all requests are granted, the copy is equal to the source and only its references are new, and a refused block leaves nothing. C92_lost_violated and C92_every_node_violated: if an event about the insertion of a copied child is refused, the whole copy of that child stays in memory with a reference nobody has.",
  "status": "partial"
 },
 "C93": {
  "note": "Proved for all trees and all patterns of refusals: with memory enough the functions are those of Verif/Tree/Model.lean (C93_enough); replaceChild is never stopped and its nodes are always the same (C93_replace); an insertion of one node ends with the node in its place in every case, exactly when it is told is characterised by C93_insert_exact; a removal ends with the nodes of before or with those of success (C93_remove_partial). The claim is false of the code: C93_insert_violated (NO_MEM, but the node is in the tree), C93_remove_violated (NO_MEM, but the node is out and a reference was taken), C93_fragment_violated (after NO_MEM the links fit no tree), C93_fragment_freed_violated (use after free and failed assertion that follow from it), C93_silent_violated (success, but no event was raised). Not covered: listeners (each event asks for one block only).",
  "status": "partial"
 },
 "C94": {
  "note": "C94_fields_partial and C94_written_partial for all fields but the flags of copied scripts, which nobody writes (C94_flags_violated); SELECT's selected is never written (C94_selected_violated).",
  "status": "partial"
 },
 "C95": {
  "note": "Proved: what a parser reports (C95_report), when Hubbub is told to start again (C95_restart), the encoding and quirks mode of every document after every call (C95_document), the errors (C95_errors), and that no dangling string is used (C95_references_partial). Missing because the code is wrong: references are lost whenever a parser replaces an encoding (C95_lost_violated), parser and document disagree by default (C95_default_violated), fragment parsers (C95_fragment_violated), and one error number becomes success (C95_error_lost_violated).",
  "status": "partial"
 },
 "C96": {
  "note": "For every function of the model's client (C96_step), every history after a reachable memory (C96_history) and every node held throughout (C96_held). The document of a DocumentType is outside the claim. That names of nodes are not reused is a device of the model and not claimed of the code.",
  "status": "proved"
 },
 "C97": {
  "note": "Proved: the counts of maps and nodes (C97_counts), when a map is made (C97_open), that maps are live (C97_live), removal (C97_remove), what setting refuses (C97_set_refused). Partial: absence of faults (C97_no_fault_partial) and of leaks (C97_no_leak_partial) for the clients of Mindful, which leave out the faults of the tree functions that C46 and C47 show and replacing the first attribute; setting (C97_set_partial) without replacing the first attribute, which reads freed memory (C97_set_first_violated). Missing: refused memory.",
  "status": "partial"
 },
 "C98": {
  "note": "Proved: what is answered (C98_told, C98_stays), that no reference is given or taken (C98_no_reference), absence of faults for heedful clients (C98_no_fault_partial), and that the answer is in memory as long as the client has a reference to it (C98_held_partial). Missing because the code is wrong: otherwise the pointer may dangle (C98_dangling_violated).",
  "status": "partial"
 },
 "C99": {
  "note": "C99_create, C99_name, C99_ids, C99_destroy, C99_life, C99_null: as stated. C99_unchecked_violated: names are not checked, contrary to the comment of the function. Not modelled: strings that are not UTF-8, the first creation of the namespace strings, the tree around the document type.",
  "status": "partial"
 }
}