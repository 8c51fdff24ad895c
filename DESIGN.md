# Formal model of libdom: design

This directory holds a Lean 4 model of libdom (`/repo`, C) and machine-checked theorems about it.
`properties.jsonl` lists the properties in English; `MANIFEST.json` maps each one to theorems.

## 1. How the model is organised

* `lean/Verif/<Area>/Model.lean` – the code, function by function. Every definition cites file and lines.
* `lean/Verif/<Area>/Spec.lean` – the small specification used in theorem statements (no reference to model helpers).
* `lean/Verif/<Area>/Lemmas*.lean` – helper lemmas.
* `lean/Verif/<Area>/Props.lean` – the property theorems (one section per property id), each next to an
  `example`/witness showing its hypotheses are met by a concrete non-trivial case, and `#print axioms`-clean.

Conventions

* C `NULL` is `none`; a pointer dereference of `NULL` or of a freed object, a failed `assert`, and a loop that
  would never stop are distinct *fault* outcomes of the model, never silently totalised.
* `uint32_t`/`int32_t` wrap-around is modelled with explicit `% 2^32` (or `BitVec 32`) where an API takes such a value.
* Allocation is assumed to succeed (no `DOM_NO_MEM_ERR` from `malloc`), see section 3, except in `Verif/Oom`, where any request may be refused.
* Where code and property disagree the *code* is modelled, the negation is proved with a concrete witness
  (theorem names ending in `_violated`) and the strongest true part is kept as `_partial`.

## 2. Property plan

| id | modelled | proof |
|----|----------|-------|
| C01–C04 | `string.c` substr/insert/replace/index/at/length over byte lists; the UTF-8 routines of libparserutils (not in the repo) by their documented behaviour | `encode` of a list of scalar values; induction on the characters relates byte offsets to character offsets |
| C05 | `dom_string_rindex` as written | negation with witness (returned index is one too large), `_partial`: result is exactly position+1 for ASCII |
| C06 | isequal, caseless_isequal, hash, concat over `Option String` | algebraic laws |
| C07, C08 | toupper/tolower/whitespace_op byte loops | induction |
| C09, C10 | `characterdata.c` on the string model, 32-bit arithmetic explicit | case analysis on the guards plus C01–C03 |
| C11, C12 | `text.c` split_text, whole-text walk | negations with witnesses for the boundary and for three or more adjacent nodes, `_partial` for the rest |
| C13 | `character_valid.c` binary search, tables transcribed | loop invariant on sorted disjoint tables; tables checked sorted by `decide` |
| C14–C16 | `validate.c`, `namespace.c` | language characterisation by induction; rules by case analysis; witnesses for deviations |
| C17, C18 | `hashtable.c` chains | refinement to a partial map, for every hash function and operation list |
| C19–C26 | `node.c` tree mutation on a heap of nodes with pointer fields | representation invariant relating the heap to an abstract children function; every operation commutes with the abstract list operation; induction over operation lists; witnesses for the cases where it fails |
| C27 | `document.c` import/adopt/dup_node | negation witnesses, `_partial` |
| C28–C31 | clone, contains, textContent, normalize on the heap | induction on the abstract tree; witnesses for normalize |
| C32–C35 | pointer walks of `nodelist.c`, `document.c`, `walk.c`, `html_collection.c` | walk = pre-order list, by induction on the tree; fuel is shown sufficient (termination) |
| C36–C40 | attribute lists of `element.c`, `attr.c` | refinement to an association map, invariant over operation lists; witness for the replaced-head bug |
| C41–C44 | `event_target.c`, `_dom_node_dispatch_event` | listener ring as a list; trace equality with a path specification |
| C45 | user-data list of `node.c` | refinement to a map |
| C46–C48 | reference counts, pending list, destruction | invariant over histories; witnesses where an assert trips |
| C49 | `tokenlist.c` | parse/serialise laws; stale cache witness |
| C50 | event log of the tree operations | trace equalities |
| C51–C54 | `html_element.c`, `html_table_element.c`, `html_select_element.c` | refinement plus witnesses |

## 3. Trusted base

* Lean 4.33.0 kernel. Axioms allowed: `propext`, `Classical.choice`, `Quot.sound` only. No `sorry`, no own axioms,
  no `native_decide`, no `bv_decide`.
* The reading of the C code: the model is a transcription by hand, each definition cites the lines it models.
* Not in the repository and modelled from their documented contracts: libparserutils' UTF-8 routines
  (`parserutils_charset_utf8_*`), libwapcaplet's interning, the C library.
* `malloc` never fails, except in `Verif/Oom` (C84 and the properties after it on memory exhaustion), where any request may be refused.

## 4. What is modelled, what is not

* Strings (`lean/Verif/Str`): `string.c`, all functions listed in C01–C08. Reference counts of strings are not modelled.
* Node tree (`lean/Verif/Tree`): node creation, insertBefore, appendChild, replaceChild, removeChild, contains and the
  sibling/child getters of `node.c`, with the mutation events they raise.
  Not modelled there: what event listeners do (assumed not to change the tree and not to fail), the
  `script_added_callback` (assumed NULL), user data handlers, the `embedder_data` field.
  Order inside the pending list is not represented (no code depends on it).
* Character data (`Tree/CharData`, `Tree/WholeText`): `characterdata.c` except `_dom_characterdata_initialise` details,
  `text.c` splitText and wholeText; `replace_whole_text` is not modelled.
* Names (`lean/Verif/Names`): `character_valid.c` with its tables, `validate.c`, `namespace.c` (validation, splitting),
  and the order of checks in `document.c` create_element(_ns)/create_attribute(_ns).
* Hash table (`lean/Verif/Hash`): `hashtable.c` except destruction. Keys and values are abstract; the vtable is a parameter.
* Events (`lean/Verif/Events`): `event_target.c` registration and removal, `_dom_event_target_dispatch`, and the dispatch
  of `node.c` (`dom_node_dispatch_event`). A listener is a function from the state to the calls it makes (stop, prevent,
  add, remove, dispatch again); it does not change the tree. An entry has an address that is never reused. Not modelled:
  default-action functions of the document event layer, reference counts of the targets collected.
* Traversals (`lean/Verif/Trav`): length and item of `nodelist.c`, `html_collection.c`, the id search of `document.c`,
  `dom_walk` of `walk.c`. Callbacks and filters do not change the tree; reference counts of the nodes returned and the
  list cache of the document are not modelled. Names are compared through the node's `name` field.
* `Verif/Tree/Content.lean`: reading the text content of a node.
* Attributes (`lean/Verif/Attr`): the attribute list of `element.c` (find, count, index, insert, unlink, destroy), get/set/has/removeAttribute with and without
  namespace, attribute nodes, the NamedNodeMap functions, id and class attributes, `attr.c` values and types, the name folding of
  `html_element.c`. Not modelled: the parser hooks of `dom_element_parse_attribute` beyond the identity, listeners of the events (assumed not to
  change anything), the release of string references, elements being destroyed. Reference counts of attribute nodes are natural numbers (no wrap when held).
* Token lists (`lean/Verif/Tokens`): `tokenlist.c` over the value of one attribute of one element. Creation, length, item, contains, value, add, remove, the
  listener. Not modelled: reference counts, other listeners, the capacity wrapping at 2^32 entries.
* User data (`lean/Verif/User`): `_dom_node_set_user_data`, `_dom_node_get_user_data` and the release of the entries in `_dom_node_finalise`, cell by
  cell. Handlers are assumed not to call back into the node.
* `Html/Reflect.lean`: reflected boolean and integer properties (html_element.c:359-650) on the attribute model; `long` has 64 bits,
  conversions to 32 bits are modulo 2^32, `strtol`/`strtoul`/`snprintf` behave as in ISO C. The cached `checked` flag of inputs is not modelled.
* `Html/Select.lean`: option and select elements (html_option_element.c, html_select_element.c, html_options_collection.c) on the tree model and
  the attribute model together (the address of an element is its node). Collections are created and released inside each function, so their
  reference counts are left out; `add`, `remove`, `form`, `blur` and `focus` are not modelled.
* `Html/Table.lean`: the rows of table and table section elements (html_table_element.c, html_tablesection_element.c) on the tree model and the
  collection walk of `Trav`.  A created row or section is made by `createNode`; a row dropped because of a bad index is not created at all.
* `Tree/Life.lean`: reference counts, destruction of every node type, the pending lists and the fate of documents (node.c, document.c, element.c,
  doc_fragment.c), the six functions that return a neighbour, and the insertion of an attribute with a new name. User data handlers, listeners
  and strings are not released there; documents are plain documents (the string tables of HTML documents are left out); `host` of fragments is
  modelled in the destroy function but never set.  Histories of a client (`Client`) keep a ledger of its references next to the memory.
* `Tree/Clone.lean`: `dom_node_clone_node` with the copy functions of all node types (node.c, element.c, attr.c, characterdata.c, text.c, doc_fragment.c,
  doc_type.c, document.c, entity_ref.c, pi.c). The address of a caller's variable that `_dom_pi_copy` returns is an address at which there is no node.
  Not modelled: the copy functions of HTML elements, user data handlers called on cloning.
* `Tree/Normalize.lean`: `dom_node_normalize` (node.c) on top of `wholeText`, `appendData`, `detach` and `unref`.  Strings are not reference counted.
* `Tree/Import.lean`: `dom_document_import_node`, `dom_document_adopt_node` and `dom_document_dup_node` (document.c), with the simplifications of `Tree/Clone.lean`.
* `Verif/Query`: node.c 363-490 (node name and value), 1319-1404 (prefix, local name, hasAttributes), 1654-1745 (isEqualNode),
  element.c 1241-1351 (ancestor searches, attributes, hasAttributes), document.c 738-838 (createElementNS, createAttributeNS).  The attributes of an element are here the list of attribute nodes of the tree model; they only matter for
  `isEqualNode`, which compares the addresses of the lists.  `setNodeValue` takes the function for attributes as a parameter.
* `Verif/Query/Lookup.lean`: element.c 1365-1478, node.c 1565-1635, attr.c 703-760 (namespace lookup).  The tree is read, the
  attributes live in the attribute memory at the address of their element; that both describe the same elements is a hypothesis of the
  theorems (`Covers`).  The prefix of attribute nodes plays no part in the code.
* Node list sharing (`Verif/Cache`): `_dom_document_get_nodelist`, `_dom_document_remove_nodelist`, `_dom_nodelist_create`, `dom_nodelist_ref`,
  `dom_nodelist_unref` and `_dom_nodelist_match` over a memory of lists and cells.  Documents and roots occur as addresses; the references lists hold on
  them are counted, what the tree does when a count becomes 0 is not part of this memory (a node with a list on it always has a positive count).  The
  boolean `any_*` fields are computed from the strings.  Strings are values.
* `Query/ById.lean`: the id search of `document.c` with the ids read by `_dom_element_get_id` from the attribute memory, and `_dom_element_set_id_attr`.  That
  every element of the tree is in the attribute memory is a hypothesis.
**Parser callbacks** (`Verif/Parse`): `append_child`, `reparent_children`, `get_parent` and `add_attributes` of bindings/hubbub/parser.c over the tree and attribute models; `insert_before`, `remove_child`, `clone_node`, `has_children` are the DOM functions themselves. Not modelled: the callbacks that create nodes, `form_associate`, `set_quirks_mode`, `change_encoding`, `complete_script`, the feeding of the parser, and the other binding (bindings/xml).
* **Storage of strings** (`Verif/Intern`): string objects, buffers and libwapcaplet's table are a heap; `dom_string_create`, `_create_interned`, `_ref`, `_unref`, `_destroy`, `_intern`, `_data`/`_byte_length`, `_isequal`, `_lwc_isequal`, `_concat`, `_toupper`, `_tolower`, `_whitespace_op` are modelled on it. libwapcaplet (not in /repo) is represented by its contract: one live string per byte sequence, counted references, comparison by address. Scratch buffers of the case and white-space functions, substr/insert/replace and the caseless comparisons are not in this heap model (their byte results are in `Verif/Str`).
* `Verif/Html/Numbers.lean` (C66) compares `strtol`/`strtoul` with base 0 on the text of an attribute (`Verif/Html/Reflect.lean`) with HTML's rules for parsing integers. `Verif/Attr/PropsNs.lean` covers `_dom_element_set_attribute_ns` and removal through the named node map.
* Table rows (`Verif/Html/Row.lean`): `get_row_index`, `get_section_row_index`, `insert_cell`, `delete_cell` of html_tablerow_element.c on the tree of `Verif/Tree`; references are not represented, nor is the overflow of the `int32_t` counter of `get_section_row_index`.
* Creating HTML elements (`Verif/Html/Create.lean`): `_dom_html_document_get_element_type`, `create_element(_ns)`, `_dom_html_element_initialise/finalise` as far as their strings go, the memoised strings of the document and the stored title, on the string heap of `Verif/Intern`. The element is the record of its strings and type; its tree links and the per-type structures are not part of this model. The list of attribute names a document memoises is a parameter.
* `Html/Collect.lean`: `dom_html_collection_get_length/item/named_item` with the attributes of the elements read from the attribute model (the
  lookup `id`, then `name`, by `dom_string_isequal`), the named_item of the options collection, the five collections of an HTML document with their
  tests, `_dom_html_document_get_title` (the search) and `_dom_html_document_get_body`.  The references taken during the walks are left out; a
  collection is represented by its root and its test.
* `Verif.Events.Live` models `_dom_node_dispatch_event` once more together with the memory of the nodes: what listeners and default-action callbacks do is any list of commands (register, unregister, stop, prevent, ask for target and current target, any action of a tree client) chosen from the whole state. The event object itself (its reference count, its type string), a dispatch nested in another one, and default-action fetchers that give callbacks for some types only are not included.
* `Verif/Html/Control.lean`: the strings and flags of INPUT (html_input_element.c:59-93, 172-349, 379-406, 583-604) and of TEXTAREA (html_text_area_element.c:59-92, 171-277), in the memory of strings. Not modelled: the attributes themselves, that `set_checked` also adds or removes the attribute, events, that the text of an element with one text node is that node's string and not a new one, a failing `dom_node_set_text_content`, the copy of a TEXTAREA.
* `Verif/Html/Forms.lean`: the `form` pointers of INPUT, TEXTAREA, SELECT and BUTTON, `_dom_is_form_control`, the elements and the length of a form, `form_associate` of the parser binding and the `get_form` functions (html_form_element.c:169-210, 300-327; bindings/hubbub/parser.c:525-573). Not modelled: LABEL, LEGEND, FIELDSET, OPTION and ISINDEX, whose `get_form` functions do not use the pointer; submit and reset.
* `Verif/Events/Modifiers.lean`: the modifier keys of keyboard, mouse and wheel events (keyboard_event.c:131-234, 274-285, 391-460; mouse_event.c:126-177, 222-359; mouse_wheel_event.c:95-115; mouse_multi_wheel_event.c:129-152). Not modelled there: positions, buttons, location, `view` and `detail`, which are plain values that are stored and returned.
* `Verif/Events/Objects.lean`: event objects of all ten types with their strings and nodes, on the string storage of `Verif/Intern` (event.c:20-110, 247-359; custom_event.c, ui_event.c, text_event.c, keyboard_event.c, mouse_event.c, the two wheel events, mutation_event.c, mutation_name_event.c; document_event.c:26-183). Nodes are only counted. Not modelled there: an initialiser of a base type called on an event of a derived type, overflow of the counts of nodes, the related target of mouse events (stored without a reference, mouse_event.c:308), plain values (positions, buttons, detail), and `_dom_document_event_can_dispatch`, which always returns NOT_SUPPORTED_ERR (document_event.c:174-183).
* `Verif/Parse/Xml.lean`: the handlers of the XML parser binding for expat, on the tree of `Verif/Tree`; expat is the sequence of events it reports (bindings/xml/expat_xmlparser.c:36-301, 364-465, 478-620). The attributes of the new elements and the identifiers of the DocumentType are kept beside the tree. Not modelled there: the texts of messages (they are counted), failures of malloc, external entities (303-362), expat itself.
* `Verif/Impl`: `dom_implementation_create_document` (core implementation) and `dom_implementation_create_document_type`, src/core/implementation.c. Not modelled: the creation of HTML documents by the former, `has_feature` and `get_feature`, which always answer DOM_NOT_SUPPORTED_ERR.
* `Verif/Events/Ring*`: the listener entries at the level of pointers: `list_append`, `list_del`, `list_has` (src/utils/list.h), `dom_event_listener_create/ref/unref`, adding, removing, finalising and the iteration of src/events/event_target.c. `C77_history` shows that this memory holds the lists of `Verif/Events/Model.lean`. Not modelled here: the reference counts of the type strings. The public macro `dom_event_target_iter_event_listener` (include/dom/events/event_target.h) names a function that no header declares; this is outside the model.
* `Verif/Tree/ReplaceText.lean`: `replaceWholeText` with the deleting walk of src/core/text.c:349-460, on the life-cycle model (removing and releasing nodes), and `dom_attr_mark_readonly`.
* `Verif/Tree/SetText.lean`: `_dom_node_set_text_content` (src/core/node.c:1507-1549) with the references that `removeChild` and `appendChild` return and the calls of `dom_node_unref` on them. `Verif/Tree/PropsEdit.lean`: the client histories of C46 and C47 with the functions of `dom_characterdata`, `splitText` and `setTextContent` as further steps.
* `Verif/Tree/SetAttr.lean`: setting, removing and reading attributes by name with the memory of the tree (`_dom_element_set_attr`, `_dom_element_remove_attr`, `_dom_element_get_attr`, src/core/element.c:1614-1839; `_dom_attr_set_value`, `_dom_attr_get_value`, src/core/attr.c:441-596): the new Attr and Text nodes, the release of the old value and of the removed attribute. Left out: the events, typed values and the class list, which are modelled in the C39, C40 and C55 modules. The client histories of `Verif/Tree/PropsEdit.lean` include these functions.
* `Verif/Parse/Session.lean`, `Verif/Parse/SessionCases.lean`: the HTML parser binding as a whole (bindings/hubbub/parser.c): the callbacks that create comments, document types, elements with their attributes and texts, the other callbacks on the tree, the creation and destruction of parsers and fragment parsers, in histories with any number of parsers and a client that works in between. Left out: `form_associate`, `set_quirks_mode`, `change_encoding`, the flags of SCRIPT elements, the public and system identifiers of document types, and the messages; Hubbub itself is a client that passes nodes it holds.
* The XML parser binding for libxml2 (`Verif/Parse/Libxml*.lean`, C81): all of bindings/xml/libxml_xmlparser.c, the SAX handlers, the delayed copying of children, names, attributes, entity references, the DTD's name and identifiers, creation and destruction. libxml2 is the sequence of its events together with the open nodes of its tree and their children; which of the two trees' nodes are linked (`_private`) is modelled, the user data in the other direction is not (nothing reads it but for the document; it dangles after `dom_xml_parser_destroy`). Attributes and their text and entity reference children are kept beside the node memory. Not modelled: messages, the DTD declarations, failure of `malloc` (on which `dom_xml_parser_create` reads `parser->msg` after the parser was freed, bindings/xml/libxml_xmlparser.c:222-228).
* `Html/Refs.lean` models the functions of tables, sections, rows and selections a second time, with every `dom_node_ref`/`unref` and the collections they open and close in the order of the code; `Html/RefsRun.lean` to `Html/RefsSelect.lean` compute each of them in a memory in order, `Html/PropsRefs.lean` states C82 over client histories (`Author`).
* `Html/Places.lean` models `optionIndex`, `cellIndex`, the searches for the form above an element and `contentDocument`; `Html/PropsPlaces.lean` proves C83. That `doc->elements[...]` is read from the document of the node is not represented.
* Memory exhaustion (`Verif/Oom/*.lean`, C84): the creation and destruction of documents and HTML documents against every sequence of granted and refused requests (src/core/document.c, src/events/document_event.c, src/html/html_document.c, src/core/string.c). Here, and only here, `malloc`, `calloc` and `lwc_intern_string` may fail, each request independently. A memory is the answer to every request, the number of requests made and the reference count of every object; contents of objects are kept where the code decides on them (which fields were written). Not modelled there: namespaces (initialised before), the named strings' texts, nodes below the document, wrap-around of counts.
* Attributes and copies of elements when memory runs out (`Verif/Oom/Attr.lean`, C85, C86): the class cache, the attribute list nodes, setting a new attribute, attaching an attribute node, copying an element with its attributes and class cache, destroying it (src/core/element.c, attr.c, text.c). Attributes have one text child or none and no prefix; no events are dispatched (their requests are taken as granted); what a failing `lwc_intern_string` leaves in its slot is a parameter (unwritten or `NULL`).
* `Oom/Parser.lean`: the strings of the namespace component (namespace.c:43-147) and the creation and closing of the parsers of the three bindings (parser.c:57-62, 766-1026; libxml_xmlparser.c:169-256; expat_xmlparser.c:478-573) with memory requests that may be refused; the Hubbub parser, the libxml context and the expat parser are one block each, the tree handler's `unref_node` is called once for the document node when Hubbub is destroyed (Hubbub itself is not part of this repository).
* `Verif/Html/DocLife.lean`: the life of one HTML document: its count, the nodes it owns (each an element outside the
  tree or a comment, possibly a child of the document) with the pending list, the two arrays `memoised` and `elements`,
  the title with the references of strings, and the calls that change or need them. Left out: what nodes hold
  themselves (`Verif/Tree`), deeper trees, mutation events, the other four strings (they are released in the same way
  as the title), lists.
* `Verif/Oom/Tokens.lean` models the whole of src/core/tokenlist.c again with reference counts and requests that may be
  refused (C90); `dom_element_set_attribute` is reduced to three groups of requests (before the listeners hear of the
  change, before the value is in place, after it), and `realloc` keeps the block where it is.
* `Verif/Oom/Chars.lean` (C91): `characterdata.c` set/append/insert/delete/replace, `text.c` splitText and
  getWholeText, `_dom_merge_adjacent_text`, and the mutation events they raise (creation, the growing array of
  targets, release), with every request for memory refusable.  Not in it: what listeners do (they leave memory as it
  was), text nodes without a value, entity references among the siblings, `replaceWholeText`.
* `Verif/Oom/Deep.lean` (C92): `dom_node_clone_node` with `deep` when memory may run out: the copy of each node (element without attributes and classes, text, comment), the insertion of the copied children with the events `DOMNodeInserted`, `DOMNodeInsertedIntoDocument` and `DOMSubtreeModified`, and the destruction of the partial copy. Not modelled: user data handlers, the callback for added scripts, listeners (a copy has none).
* Verif/Tree/Refuse.lean models the tree-changing functions of src/core/node.c once more, with the request that each mutation event makes, which may be refused (C93); `C93_enough` proves that with memory enough they are the functions of Verif/Tree/Model.lean. Simplified: nobody listens, so an event asks for one block, and the array of targets (src/core/node.c:2408-2437) is not asked for; an event at a node without owner document asks for its block too, and is not seen by anybody.
* The own fields of HTML elements (`Verif/Html/Parts.lean`, C94): the functions `..._initialise` and `..._copy` of BUTTON, INPUT, OPTION, SCRIPT, SELECT and TEXTAREA and the mark the HTML parser sets on scripts; a field of a new block is undefined until it is written.
* **Encoding, quirks mode and errors of the HTML binding (C95).** `Verif/Parse/Charset.lean` models `_set_document_encoding`, `change_encoding`, `set_quirks_mode`, `complete_script`, `dom_hubbub_parser_get_encoding`, the parts of the two `create` functions that treat the encoding, and the getters and setters of the document. What `hubbub_parser_read_charset` answers is an argument. Documents and parsers are not destroyed in this model and `malloc` does not fail; those are in `Verif/Parse/Session.lean` and `Verif/Oom/Parser.lean`.
* **Types and documents of nodes (C96).** `Verif/Tree/Identity.lean` goes through every function of `Verif/Tree/{Model,Life,Clone,CharData,SetText,SetAttr}.lean` and shows that it writes neither the type of a node nor, but for a DocumentType, its owner. Names of nodes are never reused in the model, unlike addresses under `malloc`; a name stands for the node itself. Adoption and renaming (`dom_document_adopt_node`, `dom_document_rename_node`) are not among these functions.
* **Named node maps (C97).** `Verif/Tree/Maps.lean` adds to the tree model the maps that `dom_node_get_attributes` makes, their counts, and the functions of `namednodemap.c` for elements. The name of the attribute that is set is an argument of the model, as attribute nodes have no names in the tree model; `malloc` does not fail, and names are not NULL.
* **Body and current script (C98).** `Verif/Tree/Weak.lean` adds the fields `body` and `current_script` of HTML documents to the tree model. Every document is an HTML document there; the search for the body of a document that was told none is in `Verif/Html/Collect.lean`.
* `Verif/Oom/Doctype.lean` (C99): `dom_implementation_create_document_type` and document types, request by request: `_dom_namespace_split_qname`, creation, initialisation, destruction, and the functions that answer the name and the identifiers. Strings are lists of characters (no malformed UTF-8), the namespace strings exist already, and a document type has no children, user data, namespace or value.
* `Verif/Oom/Nodes.lean` (C100): the creation functions of documents and HTML documents (src/core/document.c:467-838, src/html/html_document.c:555-1010), `_dom_namespace_validate_qname` (src/utils/namespace.c:129-234), `dom_string_toupper` (src/core/string.c:932-966), `_dom_node_initialise` and `_dom_node_finalise` (src/core/node.c:148-298), request by request. The rules for names are a parameter, the strings are well formed, an interned string costs as many requests as another one; the type, owner and place of the node are in Verif/Tree/Model.lean. `Verif/Oom/NodesNames.lean` puts in the rules of src/utils/validate.c and src/utils/namespace.c as modelled byte by byte in `Verif/Names/Model.lean`, for strings that are valid UTF-8 and shorter than 2^32 bytes.
* **The methods that raise events (C101).** `Verif/Html/Activate.lean` models `_dom_dispatch_generic_event` and the thirteen functions `dom_html_..._element_blur`, `_focus`, `_select`, `_click`, `_submit` and `_reset`, on top of the model of dispatch of `Verif/Events/Model.lean`, whose limits apply: listeners do not change the tree, and there are no default actions.
* Verif/Oom/Events.lean (C102): creating and destroying events and the events of the methods of controls when requests may be refused.  Not modelled: memory that listeners use; the fields
  that the functions `..._init` set are in Verif/Events/Objects.lean (C74).
* `Verif/Oom/Lists.lean` models `_dom_document_get_nodelist`, `_dom_nodelist_create`, `_dom_nodelist_match`, `dom_nodelist_ref`, `dom_nodelist_unref` and `_dom_document_remove_nodelist` request by request (C103). Not in it: the pointers between the cells (`Verif/Cache`), counts that wrap around, the flags for `*` (`Verif/Cache`, traversal of lists).
* `Verif/Oom/Cols.lean` models `_dom_html_collection_create`, `_dom_html_collection_initialise`, `_dom_html_collection_finalise`, `_dom_html_collection_destroy`, `dom_html_collection_ref`, `dom_html_collection_unref`, `dom_html_collection_get_length`, `dom_html_collection_item`, the collections of HTML documents and `applets_callback` request by request (C104). The nodes below a root are a list there; the walk is in `Verif/Trav`. Not in it: `dom_html_collection_named_item` under refused requests, and contexts of callbacks that are not referenced (the form of `dom_html_form_element_get_elements`).
* `Verif/Oom/Keys.lean` models `_dom_node_set_user_data`, `_dom_node_get_user_data` and the release of user data in `_dom_node_finalise` request by request, with the references to the keys (C105). Not in it: the pointers between the entries (`Verif/User`) and handlers that call back into the node.
* `Verif/Oom/Listen.lean` models `dom_event_listener_create`, `_dom_event_target_add_event_listener`, `_dom_event_target_remove_event_listener` and `_dom_event_target_internal_finalise` request by request, with the references to listeners and types (C106). Not in it: the pointers of the ring of entries (`Verif/Events/Ring.lean`), several targets, listeners called during dispatch.
* The bound on pointer-chasing loops (`bound`) is a device of the model; reaching it is the fault `diverge`, and the
  theorems show it is not reached in well-formed states.

## 5. Disagreements between code and property

Each is proved on the model with a concrete reachable witness (`..._violated`).

| property | what the code does | theorem |
|---|---|---|
| C04 | `dom_string_at` on the empty string with index 2^32-1 | see `Verif/Str` |
| C05 | `dom_string_rindex` is one too large and misses occurrences | see `Verif/Str/PropsRindex` |
| C19, C22 | replacing a child that has siblings by an empty fragment leaves the siblings linked to the removed node (node.c:2231-2241) | `C19_links_violated`, `C22_empty_fragment_violated` |
| C23 | a refused fragment insertion takes the fragment off the pending list (node.c:798-812) | `C23_pending_violated` |
| C25 | a fragment with two elements gives a Document two roots (node.c:802-812) | `C25_two_roots_violated` |
| C46, C48 | inserting a fragment a second time trips an assertion (node.c:2356) | `C48_fragment_reuse_violated` |
| C50 | removeChild raises the removal events twice (node.c:1009 and 2186); replaceChild raises none for the exchange | `C50_remove_twice_violated`, `C50_replace_silent_violated` |
| C09 | appendData on a node with NULL data trips an assertion (characterdata.c:239, string.c:552) | `C09_append_null_violated` |
| C11 | splitText at the end of the data is refused; the new node is not inserted next to the old one (text.c:199-201, 216-227) | `C11_split_end_violated`, `C11_not_inserted_violated` |
| C12 | wholeText collects at most one text node on each side (text.c:409-410) | `C12_three_texts_violated` |
| C14 | the NCName check still uses the fourth edition of XML 1.0 for the first character, Name the fifth (validate.c) | `C14_ncname_violated` |
| C15 | NUL and other control characters are accepted in attribute names (validate.c) | `C15_controls_violated` |
| C16 | without a namespace `:a` is accepted with an empty prefix, and so is `xmlns` (namespace.c:164-173) | `C16_empty_prefix_violated`, `C16_xmlns_violated` |
| C41 | removing a listener in the middle of a list rotates the list (event_target.c:130-136) | `C41_order_violated` |
| C42 | a listener that removes itself ends the loop; removing an earlier listener makes others run twice (event_target.c:248-251) | `C42_self_removal_violated` |
| C44 | `in_dispatch` is never cleared (node.c:2456-2649) | `C44_again_violated` |
| C32 | `item(2^32-1)` gives a node that does not match (nodelist.c:365); for the NULL namespace `length` counts elements that `item` never gives (nodelist.c:228-230 against 337-340) | `C32_last_index_violated`, `C32_null_namespace_violated` |
| C33 | getElementById searches one root element only | `C33_two_roots_violated` |
| C35 | a collection on a childless root leaves the subtree of its root; `item(2^32-1)` | `C35_empty_root_violated`, `C35_last_index_violated` |
| C30 | setting the text content to the empty string leaves an empty Text child (node.c:1533-1548) | `C30_empty_violated` |
| C36 | without a namespace the first entry with the local name in any namespace is taken; after removeAttribute(n) hasAttribute(n) can still hold (element.c:198-221) | `C36_remove_violated` |
| C37 | setAttributeNode can list two attributes with one key, or one attribute twice (element.c:1890-2032) | `C37_duplicate_violated`, `C37_twice_violated` |
| C38, C46 | setAttributeNode over the first attribute uses the freed list head (element.c:1930-1980, 2024-2028); a prefixed attribute cannot be removed with removeAttributeNode (element.c:2066-2079) | `C38_first_violated`, `C38_prefix_violated` |
| C39 | the first dom_attr_set_bool reads an uninitialised bool (attr.c:349-382); a number read as a string gives the empty string | `C39_bool_violated`, `C39_string_read_violated` |
| C40 | the classes are not recomputed when the attribute is changed (element.c:314-356, 1642-1760); only spaces separate, NUL ends | `C40_stale_violated`, `C40_space_violated` |
| C46 | dom_attr_set_value on an attribute without element dereferences NULL (attr.c:556) | `C46_attr_set_value_violated` |
| C51 | SVG elements whose tag HTML knows fold attribute names (html_element.c:655-665) | `C51_svg_violated` |
| C55 | DOMAttrModified is raised although the attribute refuses the value (element.c:1680-1700) | `C55_refused_violated` |
| C49 | a direct write of the text the list wrote last is ignored (tokenlist.c:79-85); the byte count is dom_string_length, which counts characters (tokenlist.c:140, 177, 240-248); only spaces separate; added words are not checked | `C49_stale_violated`, `C49_removed_violated`, `C49_utf8_violated`, `C49_utf8_written_violated`, `C49_white_violated`, `C49_word_violated` |
| C52 | switching a boolean property off removes by qualified name, and only one of several attributes with the local name (html_element.c:423-431) | `C52_prefix_violated`, `C52_two_violated` |
| C52 | the canvas getters take 2^32-1 for "not set" (html_canvas_element.c:152-205) | `C52_canvas_violated` |
| C46 | integer properties of an attribute without children: text content NULL goes to dom_string_data (html_element.c:500-506, 589-595) | `C46_reflect_violated`, `C46_reflect_bool_violated` |
| C54 | set_selected_index does not deselect, and gives the result of the collection, NULL or for -1 the select element itself, to the option setter (html_select_element.c:266-294) | `C54_keeps_violated`, `C54_range_violated`, `C54_minus_violated` |
| C54 | the collection walk leaves an empty select element that has a next sibling (html_collection.c:128-148) | `C54_empty_violated` |
| C56 | the text of nested elements is stripped before it is joined (html_option_element.c:195-214) | `C56_nested_violated` |
| C53 | rows come in document order, and rows of tables in cells are counted (html_table_element.c:385-408) | `C53_order_violated`, `C53_nested_violated` |
| C53, C46 | insert_row and delete_row use the head without looking whether there is one (html_table_element.c:781-801, 932-954), so the second insertion into a new table dereferences NULL; an empty head before a body | `C53_no_head_violated`, `C53_two_rows_violated`, `C53_empty_section_violated` |
| C53 | set_t_head asks for the name CAPTION, create_t_head appends (html_table_element.c:291-315, 601-640) | `C53_head_violated` |
| C19, C46 | `_dom_node_finalise` leaves the sibling links of children that survive (node.c:253-260) | `C19_released_parent_siblings_violated`, `C46_stale_sibling_violated` |
| C46, C48 | an inserted fragment is not on the pending list any more, so its document is freed under it (node.c:801, 2350-2360; document.c:1568-1574) | `C46_fragment_document_freed_violated` |
| C47 | nodes put into such a fragment do not keep the document, and nobody frees it when they go | `C47_document_leaks_violated` |
| C28, C46 | `_dom_pi_copy` returns the address of its caller's variable (pi.c:119) and leaks the copy | `C28_pi_clone_violated`, `C46_pi_clone_violated` |
| C46 | cloning a DocumentType that belongs to no document fails an assertion (node.c:1132) instead of NOT_SUPPORTED | `C46_doctype_clone_violated` |
| C28 | a shallow clone of an attribute has no children, hence no value, against the comment (node.c:1102-1106) | `C28_shallow_attribute_violated` |
| C31 | `_dom_merge_adjacent_text` appends the whole text of the second node, which contains the first (node.c:2280-2284) | `C31_text_duplicated_violated` |
| C31 | `_dom_node_normalize` does not look into the first child and keeps empty Text nodes (node.c:1190-1215) | `C31_first_child_violated`, `C31_empty_text_violated` |
| C46, C47 | `_dom_node_normalize` gives up a reference to the merged node that it never had (node.c:1204) | `C46_normalize_violated`, `C47_normalize_violated` |
| C27 | `dom_document_dup_node` never uses the document: imported and adopted nodes keep the owner of the original (document.c:1478-1560) | `C27_import_owner_violated` |
| C27 | `_dom_document_adopt_node` returns success and NULL for Text, CDATASection, Comment and ProcessingInstruction (document.c:1140-1148) | `C27_adopt_text_violated` |
| C27 | Adopting an attribute of an element calls `dom_node_remove_child` on the element, which loses its children (document.c:1160-1170) | `C27_adopt_attribute_violated` |
| C47 | A deep import keeps one of two references to each child (document.c:1523-1543) | `C47_import_violated` |
| C57 | `_dom_node_is_equal` compares the attribute maps of nodes that have none (node.c:1693-1706, namednodemap.c:315): NULL dereference for every node that is not an Element | `C57_other_violated` |
| C57 | The attribute maps and child lists of two elements are compared by owner and root (element.c:2405-2412, nodelist.c:453-457), so only the same element is equal | `C57_element_violated` |
| C60 | `_dom_node_set_prefix` accepts prefixes that are not names, and `xml` with any namespace (node.c:1330) | `C60_prefix_violated` |
| C61 | `_dom_node_set_node_value` raises no mutation event (node.c:479-489) | `C61_events_violated` |
| C36 | `_dom_element_has_attributes` is true of every Element (element.c:1345-1351) | `C36_has_attributes_violated` |
| C58 | `_dom_element_lookup_prefix` calls the owner element function of attributes on an element (element.c:1371): call through a pointer of another type | `C58_lookup_prefix_violated` |
| C58 | Declarations `xmlns:p` are looked for in a namespace called "xmlns" (element.c:1453) and never found | `C58_declaration_violated` |
| C58 | A declaration `xmlns` answers the lookup of every prefix (element.c:1462-1468) | `C58_default_violated` |
| C58 | A Document does not ask its document element (node.c:1594-1635) | `C58_document_violated` |
| C58 | `xmlns=""` gives the empty namespace, not NULL | `C58_empty_violated` |
| C58 | An attribute `xmlns` of a foreign namespace counts as a declaration (element.c:1403) | `C58_foreign_violated` |
| C63 | undeclaring an ID attribute leaves it the id of the element (element.c:2188-2202) | `C63_undeclare_violated` |
| C64 | `append_child` with a Text that has a parent, for a parent ending with a Text, copies the text and leaves the node where it is (bindings/hubbub/parser.c:353-355) | C64_append_attached_violated |
| C64 | `get_parent` with `element_only` for a node without parent asks a null pointer for its type (bindings/hubbub/parser.c:478-490) | C64_get_parent_violated |
| C64 | `reparent_children` of a node onto itself does not terminate (bindings/hubbub/parser.c:433-462) | C64_reparent_self_violated |
| C64 | `reparent_children` that fails has already moved some children and removed one (bindings/hubbub/parser.c:444-458) | C64_reparent_fail_violated |
| C65 | `dom_string_whitespace_op` of an empty string takes a reference on the argument, stores it in the result, and goes on to overwrite the result with a new string; the reference is lost (string.c:1048-1050). | `C65_whitespace_violated` |
| C65 | The pointer returned by `dom_string_data` is released by `dom_string_intern` of the same string although the string is still referenced (string.c:190). | `C65_data_violated` |
| C66 | `strtol(s, NULL, 0)` reads `017` as 15 and `0x1F` as 31 (html_element.c:507) | `C66_octal_violated`, `C66_hex_violated` |
| C66 | text that is no number reads as 0 and a number out of range modulo 2^32, not as the default | `C66_garbage_violated`, `C66_large_violated` |
| C60 | `_dom_element_set_attribute_ns` splits off the prefix and drops it: the attribute set as `p:x` is called `x` (element.c:865-897) | `C60_set_ns_violated` |
| C54 | setting the value of a select overwrites the value of the selected option instead of selecting the option with that value (html_select_element.c:363-414) | `C54_set_value_violated` |
| C67, C46 | rowIndex and sectionRowIndex of a row without parent (or whose parent has none) dereference NULL (html_tablerow_element.c:203-222, 224, 294-302) | `C67_detached_violated` |
| C67 | a row directly in the table has no index and is not counted; with the foot before the body two rows have the same index (html_tablerow_element.c:224-276) | `C67_direct_violated`, `C67_foot_violated` |
| C67, C46 | any child called tbody is taken for a body (html_tablerow_element.c:259-266) | `C67_index_violated` |
| C67 | TH elements are no cells, and the cells of a table in a cell are (html_tablerow_element.c:319-344); an empty row before another dereferences NULL | `C67_heading_violated`, `C67_nested_violated`, `C67_empty_violated` |
| C68 | In the SVG namespace `_dom_html_document_create_element_internal` unrefs the qualified name twice although the element did not take a reference of its own: with a prefix a released string is read, without one the element's name dangles | `Dom.Html.Create.C68_svg_prefix_violated`, `C68_svg_violated`, `C68_svg_cases_violated` |
| C68 | After `_dom_namespace_finalise` the SVG namespace is NULL and equals the namespace of every element created by createElement | `Dom.Html.Create.C68_uninitialised_violated` |
| C68 | `dom_html_document_should_normalize_attribute_name` leaves a reference on the element's namespace behind at every call | `Dom.Html.Create.C68_normalise_violated` |
| C68 | A document released while nodes of it are referenced has already freed its element and attribute names; creating an element then dereferences NULL | `Dom.Html.Create.C68_released_violated` |
| C68 | Names are not validated: "<" is accepted | `Dom.Html.Create.C68_name_violated` |
| C69 | collections of a document without document element fail an assertion | `C69_no_root_violated` |
| C69 | `applets` never holds APPLET elements | `C69_applet_violated` |
| C69 | an OBJECT without children in front of a sibling makes `applets` crash | `C69_applets_crash_violated` |
| C69 | `get_body` reports success and stores nothing without BODY and FRAMESET | `C69_no_body_violated` |
| C69 | a body that was set is stored and returned without a reference | `C69_body_released_violated` |
| C42 | a listener registered on the current target while it is processed is called by the same dispatch; a listener that registers itself again makes the dispatch endless (event_target.c:227-256) | `C42_added_runs_violated`, `C42_endless_violated` |
| C70 | stopPropagation suppresses the default action although nothing prevented it (node.c:2581-2613) | `C70_stopped_violated` |
| C70 | preventDefault works on events that are not cancelable (event.c:241-245) | `C70_cancelable_violated` |
| C70, C46 | the event holds no reference to its target and current target: asking for them after the dispatch, or in the callback at its end, uses released memory (node.c:2555, 2633-2646) | `C70_target_violated`, `C70_current_violated` |
| C72 | the default value of an INPUT keeps the first value of the attribute (html_input_element.c:337-343) | `C72_default_value_violated` |
| C72 | a click on a checked checkbox leaves it checked, whatever the listeners do (html_input_element.c:600-601) | `C72_click_violated` |
| C72 | reading the value of a TEXTAREA makes its default value NULL (html_text_area_element.c:230-231) | `C72_area_default_violated` |
| C72 | each reading of the value of a TEXTAREA that was not set loses a reference (html_text_area_element.c:227-228) | `C72_area_leak_violated` |
| C71 | a control created by a program and put inside a form is not an element of it (nothing but the parser sets the pointer) | `C71_created_violated` |
| C71 | a control moved out of its form, or a copy of it put elsewhere, is still an element of the form | `C71_moved_violated`, `C71_copied_violated` |
| C71 | an SVG element named like a control is treated as the object of a control: memory after its end is read and written (html_form_element.c:311-324, parser.c:534-569) | `C71_svg_violated` |
| C71 | the pointer to the form is not counted: after the form is released a control gives released memory (html_input_element.c:501-505) | `C71_get_form_violated` |
| C73 | wheel events: the modifier list is parsed into the event and then cleared by the mouse initialisation (mouse_wheel_event.c:107-114, mouse_multi_wheel_event.c:145-151) | `C73_wheel_violated` |
| C73 | a keyboard event initialised again keeps the modifiers of before (keyboard_event.c:274-285) | `C73_keyboard_violated` |
| C73 | the question for an unknown modifier name returns DOM_NO_ERR and writes no answer (keyboard_event.c:211-231, mouse_event.c:236-256) | `C73_unknown_violated` |
| C74 | an event initialised again drops its old type, namespace and strings without giving back their references (event.c:259, 350-352; text_event.c:93-94; mutation_event.c:173-183) | `C74_again_violated` |
| C74 | a mutation name event takes a reference on its related node through the mutation event initialiser and never gives it back (mutation_name_event.c:53-59) | `C74_name_node_violated` |
| C74 | bubbles, cancelable and time of a new event, and the related node of a new name event, are read from memory that malloc returned and nothing wrote (event.c:28, 46-68; mutation_name_event.c:43-50) | `C74_unwritten_violated` |
| C74 | initialising with a namespace writes no time (event.c:347-359) | `C74_time_violated` |
| C74 | initialising without a namespace keeps the namespace of before (event.c:256-272) | `C74_namespace_violated` |
| C74 | createEvent with an unknown type name makes a plain event (document_event.c:102, 112-122) | `C74_unknown_violated` |
| C75 | the end tag of the root element is always reported as CRITICAL ("Attempted to close more than was opened") and the root element stays current, so comments after it become its children (bindings/xml/expat_xmlparser.c:183-191) | `C75_root_end_violated` |
| C75 | the public and the system identifier of a document type are exchanged (bindings/xml/expat_xmlparser.c:428-431, src/core/implementation.c:60-62) | `C75_identifiers_violated` |
| C75 | a CDATA section reported in several pieces, as at every line end, becomes several CDATASections, an empty one none (bindings/xml/expat_xmlparser.c:253-281) | `C75_cdata_violated` |
| C75 | processing instructions are dropped and the texts around them become one (bindings/xml/expat_xmlparser.c:457-465) | `C75_pi_violated` |
| C75 | an element that is refused, such as `<p:xmlns/>`, is not entered, but its end tag closes the element around it (bindings/xml/expat_xmlparser.c:72-91, 183-199) | `C75_refused_violated` |
| C76 | createDocumentType takes any string as name: "a b", "a:" (documented: INVALID_CHARACTER_ERR, NAMESPACE_ERR) | `C76_doctype_name_violated` |
| C77 | the iteration over the listeners of a target starts at the second listener and gives the first one last | `C77_iter_first_violated`, `C77_iter_order_violated` |
| C77 | a client that iterates and removes the listener it was just handed reads a freed entry at the next step | `C77_iter_remove_violated` |
| C78 | `replaceWholeText` removes the node itself from the tree and does not put it back, so that the text is lost from the document | `C78_lost_violated` |
| C78 | of the adjacent Text nodes only the nearest on either side is deleted | `C78_rest_violated` |
| C78 | `replaceWholeText` on a Text node without parent reads the function table of NULL | `C78_orphan_violated` |
| C30 | a node the client holds below a released child keeps the pointer to its freed sibling (node.c:253-260) | `C30_dangling_violated` |
| C79 | setting the value of an attribute that is not in an element follows the NULL parent pointer (attr.c:534-596, element.h:205-212) | `C79_value_orphan_violated` |
| C79 | after removing an unreferenced attribute, a referenced node of its value keeps the pointer to its freed sibling (node.c:253-260) | `C79_remove_stale_violated` |
| C80 | a start tag whose name has a colon becomes an element whose local name is what follows the first colon (html_document.c:909-935) | `C80_element_colon_violated` |
| C80 | a start tag whose name ends with its only colon makes `create_element` fail with HUBBUB_UNKNOWN (html_document.c:565-567) | `C80_element_refused_violated` |
| C75 | an attribute without namespace that follows one of the same local name in a namespace is lost and the other one gets its value: looking up a name without namespace finds it in every namespace (src/core/element.c:198-221) | `C75_attribute_violated` |
| C81 | `<e p:a="1" a="2"/>`: the second attribute is taken for the first, whose list entry is freed while the element's list still begins with it (src/core/element.c:1941-1942, 2025-2029): use after free, for every element and every such pair | `C81_attribute_violated` |
| C81 | `<e class="&x;"/>`: the value cannot be read and the clean-up uses the element of an attribute that has none (src/core/element.c:276-355): null pointer | `C81_class_violated` |
| C81 | a comment after the declaration of an entity in the DTD is put into each (read-only) reference to it: the copy stops, the reference is lost with its count 1, and the document is never freed (libxml_xmlparser.c:1094-1100) | `C81_entity_violated` |
| C81 | an element for which libxml2 reported an error is not copied; if the last error is only a warning at an element inside of it, that one is appended to a NULL node (libxml_xmlparser.c:442-495) | `C81_link_violated` |
| C81 | the binding keeps no reference to the open elements: a caller that takes one out between two chunks and gives it up makes the next chunk write to freed memory | `C81_client_violated` |
| C81 | there is no handler for processing instructions: they are lost, and texts around one become one | `C81_pi_violated` |
| C82 | `dom_html_table_element_set_caption`, `set_t_head`, `set_t_foot` drop the node that `dom_node_append_child` returns without releasing it: every successful call leaks a reference, and with it the child and its document | `C82_set_violated`, `C82_set_leak_violated` |
| C82 | `dom_html_table_element_delete_row` returns DOM_INDEX_SIZE_ERR without releasing the foot when the row is in none of the sections (`insert_row` does release it) | `C82_delete_row_leak_violated` |
| C83 | `dom_html_option_element_get_index` and `dom_html_table_cell_element_get_cell_index` dereference NULL for a node without parent | `C83_option_violated`, `C83_cell_violated` |
| C83 | the index of an option counts siblings by name only: options in groups start at 0 again, a processing instruction called option counts | `C83_group_violated`, `C83_instruction_violated` |
| C83 | the index of a cell counts the cells of nested tables | `C83_nested_violated` |
| C83 | a LEGEND outside of a FIELDSET has no form | `C83_legend_violated`, `C83_legend_case_violated` |
| C83 | `dom_html_object_element_get_content_document` returns the document of the element itself, without a reference | `C83_content_violated`, `C83_content_case_violated` |
| C84 | a document whose creation runs out of memory after its first seven requests leaves objects behind: one when a string cannot be made, 14 to 23 when an event type string cannot | `C84_document_violated` |
| C84 | an HTML document whose creation runs out of memory leaves 24 objects of the base document behind | `C84_html_violated` |
| C84 | if the first array of an HTML document cannot be allocated, the clean-up reads the other arrays, which were never written | `C84_html_uninit_violated` |
| C85 | if the array for the class names of a new attribute `class` is refused, the name of the attribute loses a reference that belongs to the caller (element.c:345-347, 295: the list node is destroyed before it took its references) | `C85_class_violated` |
| C85 | if a class name cannot be interned, the slot it should have gone to is given back too (element.c:126-127, 142-143) | `C85_class_name_violated` |
| C85 | if the array for the class names is refused while an attribute node is attached, the attribute's parent, still NULL, is dereferenced (element.c:291, 345-347) | `C85_attach_violated` |
| C86 | a refused request while attributes are copied is not noticed: the copy has no attributes (element.c:1561-1562) | `C86_attributes_violated` |
| C86 | a refused request after `class` was copied reads the class cache of the new element before it was written (element.c:451, 291, 1561) | `C86_uninit_violated` |
| C86 | if the array for the copied class names is refused the copied attributes are lost (element.c:1570-1572, 1594-1596) | `C86_lost_violated` |
| C87 | if the string "id" cannot be made, the HTML parser's whole document is lost (bindings/hubbub/parser.c:864-872: `binding->doc` is never given up) | `C87_html_parser_violated` |
| C87 | with a charset, the first encoding string of the document is lost (bindings/hubbub/parser.c:57-62) | `C87_encoding_violated` |
| C87 | if the document cannot be made, the libxml binding reads `parser->msg` after freeing the parser (bindings/xml/libxml_xmlparser.c:222-228) | `C87_libxml_violated` |
| C88 | a failed first use leaves strings in `dom_namespaces`, which the next use writes over (src/utils/namespace.c:62-75) | `C88_retry_violated` |
| C88 | lack of memory in the namespace component is reported as `DOM_NAMESPACE_ERR` (src/core/implementation.c:187-192) | `C88_code_violated` |
| C89 | `_dom_html_document_finalise` runs when the last reference to the document is given up, although nodes the client holds keep the document in memory. It sets `memoised` and `elements` to `NULL`, so every later `dom_html_element_get_*`/`set_*` on such a node, and `dom_document_create_element` on the document taken back with `dom_node_get_owner_document`, go through a null pointer | `C89_read_violated`, `C89_create_violated` |
| C89 | the same function releases `title` (and `cookie`, `url`, `domain`, `referrer`) without setting it to `NULL`; a document taken back from a node and given up again releases it a second time | `C89_title_violated` |
| C90 | `dom_tokenlist_add` puts the word into the list before the new value is built; if that fails the error is reported, but the word stays in the list: the retry finds it there and reports success, and the attribute never gets it | `C90_add_violated` |
| C90 | `dom_tokenlist_remove` returns `false` (`DOM_NO_ERR`) when the list cannot be read for lack of memory | `C90_remove_violated` |
| C90 | `dom_element_set_attribute`, and with it `dom_tokenlist_add`, reports lack of memory for the event sent after the change has been made | `C90_late_violated` |
| C91 | `insertData`, `deleteData` and `replaceData` do not give back the new string when the `DOMCharacterDataModified` event cannot be made (`appendData` does) | `C91_forgotten_violated` |
| C91 | Every change of character data reports lack of memory for the `DOMSubtreeModified` event after the text has been changed | `C91_late_violated` |
| C91 | `splitText` destroys the new node when that second event is refused, after the old node was cut: the second part of the text is lost | `C91_split_cut_violated`, `C91_split_lost_violated` |
| C91 | `getWholeText` keeps a reference to the value of the text on the right when the strings cannot be joined | `C91_whole_violated` |
| C91 | `_dom_merge_adjacent_text` (normalize) keeps the collected text when it cannot be appended | `C91_merge_violated` |
| C92 | When an event about the insertion of a copied child is refused, `dom_node_clone_node` gives back the copy of the parent but not the reference to the child (node.c:1148-1152): the child with all below it stays in the list of pending nodes, and the document can never be freed | `C92_lost_violated`, `C92_every_node_violated` |
| C93 | `_dom_node_attach_range` links the nodes before it raises the events and returns at the first event that is refused (src/core/node.c:2117-2156): insertBefore answers DOM_NO_MEM_ERR although the node is in the tree | `C93_insert_violated` |
| C93 | The same for a fragment: the fragment keeps its pointers to children whose parent is now another node (src/core/node.c:806-825); giving the fragment back frees nodes of the tree, calling again fails an assertion | `C93_fragment_violated`, `C93_fragment_freed_violated` |
| C93 | `_dom_node_remove_child` returns the error of its last event after the node has been removed and the reference taken (src/core/node.c:1015-1029) | `C93_remove_violated` |
| C93 | `_dom_node_detach` throws the errors of its events away (src/core/node.c:2187-2194): a call that succeeds may have raised no event | `C93_silent_violated` |
| C94 | The copy of a SCRIPT has no flags: `_dom_html_script_element_copy_internal` copies no field and `..._copy` sets `processed` only (src/html/html_script_element.c:115-150); `dom_html_script_element_get_flags` on it reads what the allocator left | `C94_flags_violated` |
| C94 | `selected` of a SELECT is never assigned and the copy reads it (src/html/html_select_element.c:61-68, :152) | `C94_selected_violated` |
| C95 | `_set_document_encoding` overwrites the field `encoding` of the document without giving up its reference: the old string is never freed | C95_lost_violated |
| C95 | without an encoding, the parser reports Windows-1252 while the document that it made reports UTF-8 | C95_default_violated |
| C95 | a fragment parser that is given an encoding leaves the document alone, but one that is given none changes the encoding of the client's document when the fragment has a META element with one | C95_fragment_violated |
| C95 | `complete_script` turns the error `DOM_HUBBUB_HUBBUB_ERR` of the client into `HUBBUB_OK` | C95_error_lost_violated |
| C98 | `set_body` and `set_current_script` keep a pointer without a reference, and nothing clears it: after the element is gone the getters answer freed memory | C98_dangling_violated |
| C97 | `dom_namednodemap_set_named_item` of an attribute with the name of the first attribute of the element frees the entry that `element->attributes` points to and then inserts through that pointer | `C97_set_first_violated` |
| C99 | `dom_implementation_create_document_type` documents `DOM_INVALID_CHARACTER_ERR` and `DOM_NAMESPACE_ERR` for bad names but checks no name (only NULL) | `C99_unchecked_violated` |
| C100 | `_dom_html_document_create_element_internal` (src/html/html_document.c:574) unreferences the name of an SVG element and then unreferences it again at the end, so that the caller's reference and the element's are gone; if the allocation of the element fails the call itself uses the freed name | `C100_svg_violated`, `C100_svg_refused_violated` |
| C101 | blur of input elements and blur and focus of select elements bubble, those of other elements do not (html_input_element.c:531-534, html_select_element.c:701-704, 721-724) | C101_bubbles_violated |
| C101 | a click on an input element checks it although a listener called preventDefault (html_input_element.c:597-601) | C101_prevented_violated |
| C102 | `_dom_keyboard_event_create` (keyboard_event.c:23-32) returns the error of its initialisation without freeing the block it has allocated | `C102_keyboard_violated` |
| C101 | blur of input elements and blur and focus of select elements tell listeners that they can be cancelled, those of other elements do not (html_input_element.c:531-534, html_select_element.c:701-704, 721-724) | `C101_cancelable_violated` |
| C104 | `applets_callback` (src/html/html_document.c:1297-1299) takes a refused request for a member test as "not a member": the length of `applets` is too small, the items move up, and no error is reported | `C104_applets_violated`, `C104_applets_item_violated` |
| C104 | The collections of a document without document element fail the assertion of src/html/html_collection.c:63 instead of being empty or an error | `C104_no_root_violated` |
| C105 | `_dom_node_set_user_data` (src/core/node.c:1818-1834) with NULL for a key without entry allocates an entry: the call can fail with DOM_NO_MEM_ERR, and the entry stays, with its handler | `C105_null_violated` |
