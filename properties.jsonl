{"id": "C01", "title": "Substring extracts exactly the requested characters", "statement": "For a DOM string holding the UTF-8 encoding of characters c0..c(n-1) and indices i1 <= i2 <= n, dom_string_substr(str,i1,i2) succeeds and its result is the UTF-8 encoding of c(i1)..c(i2-1). When i2 > n (or i1 > n) it fails and produces no string.", "quantifier": "every sequence of Unicode scalar values and every pair of 32-bit indices", "why_tests_cant": "Character indices are turned into byte offsets by a loop over variable-width sequences; the set of strings and index pairs is infinite and a sample cannot cover every mix of 1..4-byte sequences.", "anchors": ["src/core/string.c:dom_string_substr", "src/core/string.c:dom_string_create"]}
{"id": "C02", "title": "String insertion splices at a character boundary", "statement": "dom_string_insert(target,source,offset) yields the first `offset` characters of target, then source, then the rest of target, for every offset <= length; for offset > length it returns DOM_INDEX_SIZE_ERR. A NULL target is the empty string. Valid UTF-8 in gives valid UTF-8 out.", "quantifier": "every target, source (sequences of Unicode scalar values) and 32-bit offset", "why_tests_cant": "Needs an induction over arbitrary-length strings.", "anchors": ["src/core/string.c:dom_string_insert"]}
{"id": "C03", "title": "String replacement splices a character range", "statement": "dom_string_replace(target,source,i1,i2) with i1 <= i2 <= length yields chars [0,i1) of target, source, chars [i2,..) of target; replacing an empty range is insertion, replacing with the empty string is deletion.", "quantifier": "every target, source and index pair", "why_tests_cant": "Infinite string/index space; boundary errors only show at particular widths and positions.", "anchors": ["src/core/string.c:dom_string_replace"]}
{"id": "C04", "title": "Forward character search is exact", "statement": "dom_string_index(str,ch) returns the least character position holding ch, and (uint32_t)-1 exactly when ch does not occur; dom_string_at at the returned position gives ch back; dom_string_at(i) for i >= length reports DOM_DOMSTRING_SIZE_ERR.", "quantifier": "every string of Unicode scalar values (fewer than 2^32-1 characters) and every 32-bit value ch / index", "why_tests_cant": "Absence and minimality are universal statements over all positions.", "anchors": ["src/core/string.c:dom_string_index", "src/core/string.c:dom_string_at", "src/core/string.c:dom_string_length"]}
{"id": "C05", "title": "Backward character search is exact", "statement": "dom_string_rindex(str,ch) returns the greatest character position holding ch, and (uint32_t)-1 when it does not occur.", "quantifier": "every string and every ch", "why_tests_cant": "Maximality ranges over all positions of all strings.", "anchors": ["src/core/string.c:dom_string_rindex"]}
{"id": "C06", "title": "String comparison is an equivalence and hashing respects it", "statement": "dom_string_isequal is reflexive, symmetric and transitive over {NULL, strings} with NULL equal to the empty string, and holds exactly when the byte contents agree; dom_string_caseless_isequal is the equivalence 'equal after ASCII lower-casing'; isequal implies caseless_isequal; equal strings have the same dom_string_hash; concatenation is associative, has the empty string as unit and adds lengths.", "quantifier": "all pairs/triples of strings, interned or not", "why_tests_cant": "Universally quantified relational laws.", "anchors": ["src/core/string.c:dom_string_isequal", "src/core/string.c:dom_string_caseless_isequal", "src/core/string.c:dom_string_hash", "src/core/string.c:dom_string_concat"]}
{"id": "C07", "title": "ASCII case conversion touches only ASCII letters", "statement": "dom_string_tolower/toupper(ascii_only=true) keep the length, change exactly the bytes A-Z / a-z, leave every multi-byte sequence intact, are idempotent, and a string is caseless-equal to its conversion; ascii_only=false is DOM_NOT_SUPPORTED_ERR.", "quantifier": "every string", "why_tests_cant": "Every byte of every string.", "anchors": ["src/core/string.c:dom_string_toupper", "src/core/string.c:dom_string_tolower"]}
{"id": "C08", "title": "White space stripping and collapsing", "statement": "dom_string_whitespace_op result: with STRIP_LEADING has no leading, with STRIP_TRAILING no trailing white space; with COLLAPSE contains no two adjacent white-space bytes and every white-space byte is a space; the sequence of non-white-space bytes is unchanged; the operation is idempotent; output never exceeds the input length.", "quantifier": "every string and every combination of the three flags", "why_tests_cant": "Interaction of three loops on unbounded inputs.", "anchors": ["src/core/string.c:dom_string_whitespace_op"]}
{"id": "C09", "title": "Character data editing follows the DOM definition", "statement": "On a writable node whose data has n characters: insertData(o,s), deleteData(o,c), replaceData(o,c,s), substringData(o,c) fail with DOM_INDEX_SIZE_ERR exactly when o or c is negative as a signed 32-bit value or o > n; otherwise the data becomes (or the result is) the characters obtained by clamping the range [o, o+c) to the end of the data; appendData appends; a failed call leaves the data unchanged.", "quantifier": "every node content, offset, count and argument string", "why_tests_cant": "Off-by-one and unsigned overflow (offset+count) behaviour over the full 32-bit space.", "anchors": ["src/core/characterdata.c:_dom_characterdata_get_length", "src/core/characterdata.c:_dom_characterdata_substring_data", "src/core/characterdata.c:_dom_characterdata_append_data", "src/core/characterdata.c:_dom_characterdata_insert_data", "src/core/characterdata.c:_dom_characterdata_delete_data", "src/core/characterdata.c:_dom_characterdata_replace_data"]}
{"id": "C10", "title": "Read-only character data never changes", "statement": "If the node is read-only every mutating character data call returns DOM_NO_MODIFICATION_ALLOWED_ERR and the data stays the same, whatever the arguments (even invalid offsets).", "quantifier": "every node, every mutating call, every argument", "why_tests_cant": "All call/argument combinations.", "anchors": ["src/core/characterdata.c", "src/core/node.c:_dom_node_readonly"]}
{"id": "C100", "title": "Nodes are created complete or not at all, even when memory runs out", "statement": "For each of the fourteen functions of documents and HTML documents that create a node (elements, attributes, texts, comments, CDATA sections, processing instructions, entity references and fragments, with and without namespaces), whatever strings are passed, whatever names the rules allow and whatever allocations fail: if the name is wrong, the answer is the error for it; otherwise, if no allocation fails, a node with exactly the name, prefix, namespace and value asked for is answered, and it holds exactly one reference to each of its strings; otherwise the answer is DOM_NO_MEM_ERR. Without a node every reference count is as before. Destroying the nodes gives everything back. The number of allocations is exact. For SVG elements of HTML documents this is false.", "quantifier": "all calls, all arguments, all rules for names, all memories and all patterns of refused allocations; all sequences of calls", "why_tests_cant": "each call has up to nine points of failure, and which of them clean up what depends on the shape of the name; tests do not make malloc fail", "anchors": ["src/core/document.c:467-838", "src/core/node.c:148-298", "src/utils/namespace.c:129-285", "src/html/html_document.c:555-1010", "src/core/string.c:932-966"]}
{"id": "C101", "title": "The methods blur, focus, select, click, submit and reset", "statement": "A method of a link, text area, form, select or input element that raises an event raises exactly one, of the type that is the name of the method, at the element: the listeners for the type at the nodes above and at the element are called in the order of the event flow until one of them stops it, where the events `blur` and `focus` do not bubble and the others do. No exception is returned, and no control changes whether it is checked, except an input element that is clicked, unless a listener prevents it. Every listener is shown an event of that type, with the element as its target, its own node as the current target and the phase of the call; clicks, submissions and resets can be cancelled, blur, focus and select cannot.", "quantifier": "for all trees, lists of listeners and behaviours of listeners that do not change the lists", "why_tests_cant": "Each element has its own copy of these functions with its own flags; a test sees the difference only if it has a listener above the element, and the listeners may stop, prevent or ignore the event in any combination.", "anchors": ["src/events/dispatch.c:259-287", "src/html/html_anchor_element.c:221-253", "src/html/html_text_area_element.c:470-522", "src/html/html_form_element.c:259-295", "src/html/html_select_element.c:693-725", "src/html/html_input_element.c:523-604"]}
{"id": "C102", "title": "Events and their memory", "statement": "createEvent, for any type and whatever requests for memory are refused, makes a complete event of the kind with that name (a plain event for any other name), or answers DOM_NO_MEM_ERR and leaves the memory as it was; events that are destroyed give back everything. The events of blur, focus, select, click, submit and reset make their requests, leave the memory as it was, and fail exactly if a request is refused; a click that fails leaves the control as it was.", "quantifier": "all types, all patterns of refused requests, all sequences of creations, any number of listening nodes", "why_tests_cant": "tests do not refuse single requests for memory", "anchors": ["src/events/document_event.c:96-160", "src/events/keyboard_event.c:23-68", "src/events/event.c:26-35", "src/events/event.c:114-121", "src/events/event.c:256-273", "src/events/dispatch.c:259-287", "src/html/html_input_element.c:583-604"]}
{"id": "C103", "title": "Node lists when memory may run out", "statement": "Whatever lists a client asks a document for, shares and gives back, in any order and whatever requests for memory are refused meanwhile: nothing freed is used; the reference count of every list is the number of references the client has; and what is held in memory beyond the start is exactly what the lists that are there hold (cell, list, document, root, strings). The answer to a request is a list for what was asked (same type, same root, same texts, or same up to ASCII case for the caseless types), or DOM_NO_MEM_ERR, and this exactly if there is no such list yet and one of the two requests for memory is refused; then nothing has changed. If all references are given back, the document has no list and every count is what it was.", "quantifier": "all histories of requests, references and releases, all patterns of refused requests, all memories", "why_tests_cant": "Tests do not refuse single requests for memory, and sharing depends on which lists are alive, so on the whole history.", "anchors": ["src/core/nodelist.c:68-131", "src/core/nodelist.c:138-142", "src/core/nodelist.c:152-190", "src/core/nodelist.c:416-444", "src/core/document.c:1328-1378", "src/core/document.c:1386-1412"]}
{"id": "C104", "title": "HTML collections when memory may run out", "statement": "Whatever HTML collections a client makes (from elements or from the document), shares, measures and gives back, in any order and whatever requests for memory are refused meanwhile: nothing freed is used, the count of every collection is the number of references the client has, and what is held beyond the start is exactly the block, the document and the root of the collections that are there; if all references are given back every count is what it was. Making a collection needs one request and answers DOM_NO_MEM_ERR, with nothing changed, exactly if it is refused. A length is the number of members, and an item is the member with that index, with a reference for the client. Disagreements: `applets` makes a collection for each OBJECT while it is measured; if that is refused the OBJECT is left out silently, so the length is too small, no index gives that OBJECT, and no error is reported; and a document without document element runs into an assertion.", "quantifier": "all histories, all trees, all patterns of refused requests", "why_tests_cant": "Tests do not refuse single requests for memory; that measuring a collection allocates at all is not visible from outside.", "anchors": ["src/html/html_collection.c:33-103", "src/html/html_collection.c:116-202", "src/html/html_collection.c:292-315", "src/html/html_document.c:1257-1321", "src/html/html_document.c:1353-1366", "src/html/html_document.c:1379-1402", "src/html/html_document.c:1431-1444", "src/html/html_options_collection.c:33-63", "src/core/document.c:433-450"]}
{"id": "C105", "title": "User data when memory may run out", "statement": "Whatever user data a client sets on a node, in any order and whatever requests for memory are refused: nothing freed is used; exactly the entries and one reference to the key of each are held; keys with the same characters share an entry; getUserData answers the value of the last accepted call about the key. setUserData answers the previous value, or DOM_NO_MEM_ERR exactly if the key has no entry and the one request is refused, and then nothing has changed. When the node is destroyed every count is what it was, and the handlers of the last accepted calls are called, once for each key, with key and value. Disagreement: setting a key without entry to NULL needs a request and leaves an entry behind.", "quantifier": "all histories of user data calls, all patterns of refused requests", "why_tests_cant": "Tests do not refuse single requests for memory, and do not look at the references to keys.", "anchors": ["src/core/node.c:1786-1845", "src/core/node.c:1855-1873", "src/core/node.c:230-241", "src/core/node.h:26-34"]}
{"id": "C106", "title": "Event listeners when memory may run out", "statement": "Whatever listeners a client creates, forgets, registers on a target and removes, in any order and whatever requests for memory are refused: nothing freed is used, and what is held beyond the start is exactly the client's references to listeners and, for each registration, its entry, its listener and its type. Registering makes one request: if it is granted there is one more registration, the last, with the type, listener and phase passed; otherwise the answer is DOM_NO_MEM_ERR and nothing has changed. A removal needs no memory and cannot fail: exactly one registration that it is about is gone, or there is none and nothing has changed. When the target is finalised only the client's references are left.", "quantifier": "all histories of listener calls, all patterns of refused requests", "why_tests_cant": "Tests do not refuse single requests for memory, and do not look at the references to listeners and types.", "anchors": ["src/events/event_listener.c:22-36", "src/events/event_target.c:21-58", "src/events/event_target.c:72-97", "src/events/event_target.c:111-148"]}
{"id": "C11", "title": "Splitting a text node conserves its data", "statement": "splitText(o) with o < length leaves the first o characters in the original node and puts the remaining ones in a new node; original data ++ new data = old data; o > length is DOM_INDEX_SIZE_ERR and changes nothing; o = length must give an empty new node; and the new node becomes the next sibling.", "quantifier": "every text content and offset", "why_tests_cant": "Boundary offset = length and all string shapes.", "anchors": ["src/core/text.c:_dom_text_split_text"]}
{"id": "C12", "title": "wholeText is the concatenation of adjacent text nodes", "statement": "getWholeText returns the data of all text nodes logically adjacent to the node, in document order, each exactly once.", "quantifier": "every sibling list and position", "why_tests_cant": "Lists of arbitrary length.", "anchors": ["src/core/text.c:_dom_text_get_whole_text", "src/core/text.c:walk_logic_adjacent_text"]}
{"id": "C13", "title": "Character class tables are searched correctly", "statement": "The class test used for XML names answers yes for a code point exactly when some range of the table contains it, for each of the six tables; and the search always terminates inside the table.", "quantifier": "every 32-bit code point and every sorted table", "why_tests_cant": "2^32 inputs per table and the binary-search invariant holds for any sorted table.", "anchors": ["src/utils/character_valid.c:_dom_is_character_in_group", "src/utils/character_valid.c:binary_search"]}
{"id": "C14", "title": "Name validation accepts exactly XML Names", "statement": "createElement, createElementNS, createAttribute and createAttributeNS raise DOM_INVALID_CHARACTER_ERR exactly when the name is not an XML Name; an NCName is a Name without ':'; every accepted NCName is an accepted Name.", "quantifier": "every byte string", "why_tests_cant": "Infinite language.", "anchors": ["src/utils/validate.c:_dom_validate_name", "src/utils/validate.c:_dom_validate_ncname", "src/core/document.c:_dom_document_create_element"]}
{"id": "C15", "title": "Attribute name validation accepts exactly the HTML attribute names", "statement": "The relaxed attribute-name check accepts a string exactly when it is non-empty and every character is other than controls, space, double quote, apostrophe, '>', '/', '=' and non-characters.", "quantifier": "every byte string", "why_tests_cant": "Infinite language; one missed code point suffices.", "anchors": ["src/utils/validate.c:_dom_validate_attribute_name", "src/utils/validate.c:is_attribute_name_char"]}
{"id": "C16", "title": "Qualified name splitting is lossless and validation enforces the namespace rules", "statement": "After a successful validate+split of a qualified name: joining prefix, ':' and local name gives back the qualified name; a prefix only occurs with a namespace; prefix xml only with the XML namespace; prefix or name xmlns exactly with the xmlns namespace; neither part is empty.", "quantifier": "every qualified name and every namespace (or none)", "why_tests_cant": "Infinite inputs and a table of interacting rules.", "anchors": ["src/utils/namespace.c:_dom_namespace_validate_qname", "src/utils/namespace.c:_dom_namespace_split_qname"]}
{"id": "C17", "title": "The hash table is a finite map", "statement": "Starting from an empty table with at least one chain, after any sequence of add (with and without replace), get and del, lookup returns exactly what a mathematical partial map updated by the same operations would return; the entry count equals the number of bindings; iterating visits each binding exactly once and then stops.", "quantifier": "every number of chains, every hash function, every operation sequence", "why_tests_cant": "Every history and every collision pattern.", "anchors": ["src/utils/hashtable.c:_dom_hash_add", "src/utils/hashtable.c:_dom_hash_get", "src/utils/hashtable.c:_dom_hash_del", "src/utils/hashtable.c:_dom_hash_iterate", "src/utils/hashtable.c:_dom_hash_get_length"]}
{"id": "C18", "title": "Cloning a hash table gives an equal and independent map", "statement": "A cloned table answers every lookup as the original did at the moment of cloning, with the same number of entries.", "quantifier": "every table state", "why_tests_cant": "Every collision pattern.", "anchors": ["src/utils/hashtable.c:_dom_hash_clone"]}
{"id": "C19", "title": "Sibling, child and parent links always agree", "statement": "After any sequence of insertBefore, appendChild, removeChild and replaceChild calls, successful or not, firstChild/nextSibling enumeration of any node's children is finite and duplicate free, lastChild/previousSibling enumeration is its reverse, every enumerated node has that node as parent, a parentless node has no siblings, and every node with a parent is enumerated by it.", "quantifier": "every sequence of tree-mutation calls on any finite set of nodes of any type", "why_tests_cant": "An inductive invariant over all histories of a mutable pointer structure.", "anchors": ["src/core/node.c:_dom_node_insert_before", "src/core/node.c:_dom_node_remove_child", "src/core/node.c:_dom_node_replace_child", "src/core/node.c:_dom_node_append_child", "src/core/node.c:_dom_node_attach_range", "src/core/node.c:_dom_node_detach_range", "src/core/node.c:_dom_node_replace"]}
{"id": "C20", "title": "insertBefore / appendChild have exactly the specified effect", "statement": "A successful insertBefore(p,c,r) of a non-fragment removes c from its old position and puts it immediately before r (at the end when r is null); of a fragment moves all its children, in order, to that position and empties it; no other node's children change and no node's type or owner changes.", "quantifier": "every well-formed forest, every p, c, r", "why_tests_cant": "The frame condition ranges over all other nodes of an arbitrary forest.", "anchors": ["src/core/node.c:_dom_node_insert_before", "src/core/node.c:_dom_node_attach_range"]}
{"id": "C21", "title": "removeChild has exactly the specified effect", "statement": "A successful removeChild(p,c) removes exactly c from p's children, leaves c parentless with its subtree intact and returns c; nothing else changes.", "quantifier": "every well-formed forest, p, c", "why_tests_cant": "Frame condition over an arbitrary forest.", "anchors": ["src/core/node.c:_dom_node_remove_child", "src/core/node.c:_dom_node_detach"]}
{"id": "C22", "title": "replaceChild has exactly the specified effect", "statement": "A successful replaceChild(p,new,old) puts new (or the children of the fragment new, in order) at old's position, removes new from its previous position, leaves old parentless and returns old; nothing else changes.", "quantifier": "every well-formed forest, p, new, old", "why_tests_cant": "Includes empty, one-element and longer fragments, adjacent siblings, first and last positions.", "anchors": ["src/core/node.c:_dom_node_replace_child", "src/core/node.c:_dom_node_replace"]}
{"id": "C23", "title": "A failed tree mutation changes nothing", "statement": "If insertBefore, appendChild, removeChild or replaceChild returns an exception, every node's children, parent, siblings and pending/ownership status are as before the call.", "quantifier": "every state and every argument triple that makes the call fail", "why_tests_cant": "Every failure path in every state.", "anchors": ["src/core/node.c:_dom_node_insert_before", "src/core/node.c:_dom_node_remove_child", "src/core/node.c:_dom_node_replace_child"]}
{"id": "C24", "title": "No node ever becomes its own ancestor", "statement": "After any sequence of tree mutations the parent relation is acyclic; an insertion that would create a cycle is refused with DOM_HIERARCHY_REQUEST_ERR.", "quantifier": "every history", "why_tests_cant": "Inductive invariant with an unbounded ancestor walk.", "anchors": ["src/core/node.c:_dom_node_insert_before", "src/core/node.c:_dom_node_replace_child"]}
{"id": "C25", "title": "Children always have a permitted type", "statement": "In every reachable state, every parent/child pair has a combination of node types allowed by the DOM, and a Document has at most one element child and at most one doctype child.", "quantifier": "every history", "why_tests_cant": "Inductive invariant; the document-root rule depends on the existing children.", "anchors": ["src/core/node.c:_dom_node_permitted_child"]}
{"id": "C26", "title": "A tree has one owner document", "statement": "In every reachable state a node and its parent report the same ownerDocument (the document itself for a top-level node); inserting a node of another document is refused with DOM_WRONG_DOCUMENT_ERR.", "quantifier": "every history over several documents", "why_tests_cant": "Inductive invariant.", "anchors": ["src/core/node.c:_dom_node_insert_before", "src/core/document.c"]}
{"id": "C27", "title": "importNode and adoptNode re-home nodes", "statement": "The node returned by a successful importNode/adoptNode of document d has ownerDocument d, as do all its descendants, and can be inserted into d; the children of other elements are not affected.", "quantifier": "every source node and documents", "why_tests_cant": "Every node type and every subtree.", "anchors": ["src/core/document.c:_dom_document_import_node", "src/core/document.c:_dom_document_adopt_node", "src/core/document.c:dom_document_dup_node"]}
{"id": "C28", "title": "cloneNode makes an equal, disjoint copy", "statement": "cloneNode(deep) returns a new parentless node with the same type, name, value and (deep) an isomorphic subtree made only of new nodes; shallow clones have no children; the original tree is unchanged.", "quantifier": "every subtree, deep or shallow", "why_tests_cant": "Structural induction over arbitrary trees.", "anchors": ["src/core/node.c:_dom_node_clone_node", "src/core/node.c:_dom_node_copy_internal", "src/core/element.c:_dom_element_copy_internal"]}
{"id": "C29", "title": "contains is the inclusive-descendant relation", "statement": "dom_node_contains(a,b) is true exactly when b is a or a descendant of a; on trees this is a partial order.", "quantifier": "every well-formed forest and pair of nodes", "why_tests_cant": "Unbounded ancestor walk.", "anchors": ["src/core/node.c:_dom_node_contains"]}
{"id": "C30", "title": "textContent concatenates descendant text and setting it replaces the children", "statement": "textContent of an element/fragment is the concatenation in document order of the textContent of its children; after setTextContent(s) the node has no child if s is empty and otherwise exactly one text child with data s, so reading it back gives s.", "quantifier": "every subtree and every string", "why_tests_cant": "Structural recursion over arbitrary trees.", "anchors": ["src/core/node.c:_dom_node_get_text_content", "src/core/node.c:_dom_node_set_text_content"]}
{"id": "C31", "title": "normalize merges adjacent text nodes", "statement": "After normalize no two adjacent text siblings and no empty text node remain anywhere below the node, and textContent is unchanged.", "quantifier": "every subtree", "why_tests_cant": "Every arrangement of text nodes at every depth.", "anchors": ["src/core/node.c:_dom_node_normalize", "src/core/node.c:_dom_merge_adjacent_text"]}
{"id": "C32", "title": "Node lists enumerate matches in document order", "statement": "For a live list over a subtree, length is the number of matching descendants in the current tree; item(i) is the i-th matching descendant in document order for i < length and null otherwise; this holds after any tree change since nothing is cached.", "quantifier": "every tree, every kind of list and filter, every index", "why_tests_cant": "Every tree shape; the traversal is an in-place pointer walk that must terminate and not escape the root.", "anchors": ["src/core/nodelist.c:dom_nodelist_get_length", "src/core/nodelist.c:_dom_nodelist_item"]}
{"id": "C33", "title": "getElementById finds the first element with that id", "statement": "The result is the first element in document order (inside the document element's subtree) whose id matches, or null exactly when there is none; the walk terminates and never leaves the document.", "quantifier": "every document", "why_tests_cant": "Every tree shape.", "anchors": ["src/core/document.c:_dom_document_get_element_by_id", "src/core/document.c:_dom_find_element_by_id"]}
{"id": "C34", "title": "The tree walker visits every descendant once in document order", "statement": "libdom_treewalk calls the callback with ENTER in pre-order and LEAVE in post-order, properly nested, exactly once per descendant of the root (never the root), except below skipped nodes; ABORT stops further calls.", "quantifier": "every tree, mask and callback behaviour", "why_tests_cant": "Every tree shape and every callback strategy.", "anchors": ["src/utils/walk.c:libdom_treewalk"]}
{"id": "C35", "title": "HTML collections enumerate matches in document order", "statement": "Length, item and namedItem of an HTML collection agree with the pre-order list of nodes of the subtree accepted by the collection's filter, and nothing outside the subtree is visited.", "quantifier": "every tree, filter and index", "why_tests_cant": "Every tree shape including an empty root with siblings.", "anchors": ["src/html/html_collection.c:dom_html_collection_get_length", "src/html/html_collection.c:dom_html_collection_item", "src/html/html_collection.c:dom_html_collection_named_item"]}
{"id": "C36", "title": "Attributes behave like a map", "statement": "After setAttribute(n,v): getAttribute(n)=v and hasAttribute(n); after removeAttribute(n): hasAttribute(n) is false and getAttribute(n) is null; all attributes with other names keep their values; setting an existing attribute does not change the number or order of attributes and setting a new one appends it. The same with (namespace, local name) keys.", "quantifier": "every element state and every name/value, any sequence of calls", "why_tests_cant": "Every history, every number of attributes.", "anchors": ["src/core/element.c:_dom_element_set_attr", "src/core/element.c:_dom_element_get_attr", "src/core/element.c:_dom_element_remove_attr", "src/core/element.c:_dom_element_has_attr"]}
{"id": "C37", "title": "Attribute keys stay unique and the map view agrees with the element", "statement": "In every reachable state no two attributes of an element share (namespace, local name); attributes.length is the number of attributes; item(i) enumerates each exactly once; getNamedItem(n) is the attribute getAttribute(n) reads.", "quantifier": "every history of attribute calls", "why_tests_cant": "Inductive invariant.", "anchors": ["src/core/element.c:_dom_element_attr_list_length", "src/core/element.c:_dom_element_attr_list_get_by_index", "src/core/namednodemap.c"]}
{"id": "C38", "title": "setAttributeNode / removeAttributeNode", "statement": "setAttributeNode(a) on an attribute that is not in use installs a, returning the attribute it replaces (same key) or null; an attribute already owned by another element is refused with DOM_INUSE_ATTRIBUTE_ERR; removeAttributeNode(a) removes exactly a or fails with DOM_NOT_FOUND_ERR; memory of a detached attribute is never touched afterwards.", "quantifier": "every attribute list, every position of the replaced attribute", "why_tests_cant": "Every list length/position, memory safety.", "anchors": ["src/core/element.c:_dom_element_set_attr_node", "src/core/element.c:_dom_element_remove_attr_node"]}
{"id": "C39", "title": "Typed attribute values are type-stable", "statement": "Once an attribute has a string/integer/short/bool type, reading or writing it with another type fails with DOM_ATTR_WRONG_TYPE_ERR and does not change it; writing then reading with the same type returns the written value.", "quantifier": "every attribute history", "why_tests_cant": "Every interleaving of typed accesses.", "anchors": ["src/core/attr.c"]}
{"id": "C40", "title": "hasClass agrees with the class attribute", "statement": "dom_element_has_class(e,c) holds exactly when c is one of the white-space separated tokens of the class attribute (caselessly in quirks mode), after any change of the attribute.", "quantifier": "every class value, class name and quirks mode", "why_tests_cant": "Every string.", "anchors": ["src/core/element.c:_dom_element_create_classes", "src/core/element.c:_dom_element_has_class"]}
{"id": "C41", "title": "Event listener registration order", "statement": "After any sequence of addEventListener / removeEventListener calls, the listeners invoked for an event at a target are those currently registered for its type and phase, each once per registration, in registration order.", "quantifier": "every sequence of add/remove calls", "why_tests_cant": "Every history of a circular list.", "anchors": ["src/events/event_target.c:_dom_event_target_add_event_listener", "src/events/event_target.c:_dom_event_target_remove_event_listener", "src/events/event_target.c:_dom_event_target_dispatch"]}
{"id": "C42", "title": "Event propagation path", "statement": "Dispatching an event on a node invokes, in this order: capture listeners on the ancestors from the outermost to the parent, all listeners of the target, then (if the event bubbles) non-capture listeners on the ancestors from the parent to the outermost.", "quantifier": "every tree depth, listener set and target", "why_tests_cant": "Arbitrary depth and listener placement.", "anchors": ["src/core/node.c:_dom_node_dispatch_event", "src/events/event_target.c"]}
{"id": "C43", "title": "Stopping propagation and preventing the default", "statement": "After stopPropagation no listener of a later target runs but the remaining listeners of the current target do; after stopImmediatePropagation no further listener runs; dispatch reports success=false exactly when preventDefault was called by a listener that ran.", "quantifier": "every path and every set of listener behaviours", "why_tests_cant": "Arbitrary combinations of behaviours.", "anchors": ["src/core/node.c:_dom_node_dispatch_event", "src/events/event_target.c:_dom_event_target_dispatch", "src/events/event.c"]}
{"id": "C44", "title": "An event object can be dispatched again", "statement": "An event whose dispatch has finished can be dispatched again; only a dispatch during its own dispatch is refused with DOM_DISPATCH_REQUEST_ERR.", "quantifier": "every dispatch history of an event object", "why_tests_cant": "Histories.", "anchors": ["src/core/node.c:_dom_node_dispatch_event"]}
{"id": "C45", "title": "User data is a per-node map", "statement": "setUserData(k,v) returns the previous value of k; getUserData(k) returns the value of the last set and null if none or if it was set to null; other keys are unaffected.", "quantifier": "every history of user data calls", "why_tests_cant": "Histories.", "anchors": ["src/core/node.c:_dom_node_set_user_data", "src/core/node.c:_dom_node_get_user_data"]}
{"id": "C46", "title": "Held nodes stay valid and memory is never used after free", "statement": "Along any sequence of node creation, ref, unref, append, insert and remove calls in which the client only uses nodes it holds a reference to (or reaches from one), no freed node is touched and no node is freed twice; a node is not freed while it has references or is attached to a live parent.", "quantifier": "every well-behaved client history", "why_tests_cant": "Every history of reference counts over arbitrary trees.", "anchors": ["include/dom/core/node.h:dom_node_unref", "src/core/node.c:_dom_node_try_destroy", "src/core/node.c:_dom_node_finalise", "src/core/node.c:_dom_node_mark_pending", "src/core/node.c:_dom_node_remove_pending"]}
{"id": "C47", "title": "Unreferenced detached nodes are reclaimed", "statement": "When the last reference to a node without parent goes, the node and, downwards, every child and attribute that is not referenced by the client are destroyed; referenced children survive with their subtrees, without parent; a document goes when neither it nor any of its nodes is referenced. So whatever is in memory is below a referenced node, or is the document of one: nothing leaks.", "quantifier": "every history", "why_tests_cant": "Liveness of reclamation over all histories.", "anchors": ["src/core/document.c:_dom_document_try_destroy", "src/core/document.c:_dom_document_finalise", "src/core/node.c:_dom_node_try_destroy"]}
{"id": "C48", "title": "Fragments can be reused", "statement": "After a DocumentFragment has been inserted (its children moved) it is an empty valid fragment: it can be filled, inserted again and released.", "quantifier": "every history using fragments", "why_tests_cant": "Histories.", "anchors": ["src/core/node.c:_dom_node_insert_before", "src/core/node.c:_dom_node_remove_pending", "src/core/doc_fragment.c"]}
{"id": "C49", "title": "Token list mirrors the attribute", "statement": "After any interleaving of token list operations and direct attribute changes, contains/length/item/value agree with the set of tokens of the current attribute value in first-occurrence order; add then contains is true, remove then contains is false; other tokens are unaffected.", "quantifier": "every interleaving of token list calls and attribute writes", "why_tests_cant": "Cache coherence over histories.", "anchors": ["src/core/tokenlist.c"]}
{"id": "C50", "title": "Mutation events report every tree change exactly once", "statement": "A successful insertion (removal) dispatches one node-inserted (before removal, one node-removed) event for the moved node with the right related node, and one per node of the subtree to document level; failures dispatch none.", "quantifier": "every tree mutation", "why_tests_cant": "Every history.", "anchors": ["src/events/dispatch.c", "src/core/node.c:dispatch_node_change_event"]}
{"id": "C51", "title": "HTML element attributes are case-insensitive", "statement": "On HTML elements set/get/has/removeAttribute treat names equal up to ASCII case as the same attribute; on SVG elements names are case-sensitive.", "quantifier": "every name and attribute state", "why_tests_cant": "Every spelling.", "anchors": ["src/html/html_element.c"]}
{"id": "C52", "title": "Reflected boolean and integer properties", "statement": "setting a boolean property to b then reading gives b and hasAttribute = b; setting an integer property then reading it gives the same integer, for every 32-bit value.", "quantifier": "every property name, element state and 32-bit value", "why_tests_cant": "2^32 values, every attribute state.", "anchors": ["src/html/html_element.c:dom_html_element_get_int32_t_property", "src/html/html_element.c:dom_html_element_set_int32_t_property", "src/html/html_element.c:dom_html_element_get_bool_property"]}
{"id": "C53", "title": "Table row insertion and deletion by index", "statement": "rows enumerates head rows, then body rows, then foot rows; insertRow(i) for -1 <= i <= length makes the new row have index i (last for -1); other indices raise DOM_INDEX_SIZE_ERR; deleteRow(i) removes exactly row i.", "quantifier": "every table structure and index", "why_tests_cant": "Every table shape.", "anchors": ["src/html/html_table_element.c"]}
{"id": "C54", "title": "Select element's selected index and value", "statement": "selectedIndex is the index of the first selected option or -1; setting it to i in range makes option i the one reported; out-of-range set is harmless; value is the value of the selected option.", "quantifier": "every option list and index", "why_tests_cant": "Every list shape and 32-bit index.", "anchors": ["src/html/html_select_element.c", "src/html/html_option_element.c"]}
{"id": "C55", "title": "Events of attribute changes", "statement": "A successful setAttribute or removeAttribute that changes the attributes raises exactly one DOMAttrModified event at the element with the right old value, new value and kind of change, and one DOMSubtreeModified event; a call that changes nothing or fails raises none.", "quantifier": "every element state, name and value", "why_tests_cant": "Every attribute list, value and refusal reason.", "anchors": ["src/core/element.c:_dom_element_set_attr", "src/core/element.c:_dom_element_remove_attr", "src/events/dispatch.c"]}
{"id": "C56", "title": "Text of an option element", "statement": "The text of an option is the data of all Text and CDATASection nodes below it that are not inside a script element, joined in document order, stripped of white space at both ends and with inner white space collapsed; NULL when there is none.", "quantifier": "every option subtree", "why_tests_cant": "Every nesting of elements and every text.", "anchors": ["src/html/html_option_element.c:dom_html_option_element_get_text_node"]}
{"id": "C57", "title": "Equality of nodes", "statement": "isEqualNode is true exactly when both nodes have the same type, name, prefix, namespace and value, equal attributes, and equal children in the same order.", "quantifier": "every pair of nodes in every reachable tree", "why_tests_cant": "Every pair of subtrees of any size.", "anchors": ["src/core/node.c:_dom_node_is_equal", "src/core/namednodemap.c:_dom_namednodemap_equal", "src/core/nodelist.c:_dom_nodelist_equal"]}
{"id": "C58", "title": "Namespace lookup", "statement": "isDefaultNamespace, lookupNamespaceURI and lookupPrefix answer as the namespace algorithms of DOM Level 3 say: by the nearest element at or above the node that has the prefix in question or declares it with an xmlns attribute; a Document asks its document element.", "quantifier": "every node of every reachable tree, every attribute memory, every prefix and namespace", "why_tests_cant": "Every depth of the tree and every mix of declarations.", "anchors": ["src/core/element.c:_dom_element_lookup_prefix", "src/core/element.c:_dom_element_is_default_namespace", "src/core/element.c:_dom_element_lookup_namespace", "src/core/node.c:_dom_node_lookup_namespace", "src/core/attr.c:_dom_attr_lookup_namespace"]}
{"id": "C59", "title": "Shared node lists", "statement": "A document keeps its live node lists. A request that a list still in use answers (same root, same kind, same names, compared ignoring ASCII case for the caseless kinds) returns that very list with one more reference and changes nothing else; any other request returns a new list for exactly what was asked with one reference, holding one reference on the document and one on the root. At any time no two lists of a document answer the same request, a list exists exactly while references are held on it, the references the lists hold on a node are counted exactly, and when all references are given back no list, cell or node reference remains. The shared list selects the same nodes as a list made for the request itself.", "quantifier": "every history of requests, references taken and references given back, over any documents, roots, kinds and names", "why_tests_cant": "Unbounded interleavings of requests and releases; the list of cells is edited in place in the middle, at the head and at the end.", "anchors": ["src/core/document.c:_dom_document_get_nodelist", "src/core/document.c:_dom_document_remove_nodelist", "src/core/nodelist.c:_dom_nodelist_create", "src/core/nodelist.c:dom_nodelist_unref", "src/core/nodelist.c:_dom_nodelist_match"]}
{"id": "C60", "title": "Qualified names and prefixes", "statement": "The name of a node is prefix, colon and local name; a node created with a qualified name is called by it; a node with a prefix is an element or attribute with a namespace; setting the prefix changes the prefix and nothing else, is ignored on nodes without namespace, and refuses read-only nodes and prefixes that are not names.", "quantifier": "every node of every reachable tree and every prefix", "why_tests_cant": "Every history of creations and prefix changes, every name.", "anchors": ["src/core/node.c:_dom_node_get_node_name", "src/core/node.c:_dom_node_set_prefix", "src/core/document.c:_dom_document_create_element_ns", "src/core/document.c:_dom_document_create_attribute_ns"]}
{"id": "C61", "title": "Setting the node value", "statement": "Setting nodeValue of a writable character data node stores the value, changes no other node and raises the mutation events of a data change; it is ignored where the value is defined to be null and refused on read-only nodes.", "quantifier": "every node of every reachable tree and every value", "why_tests_cant": "Every node type, tree and value.", "anchors": ["src/core/node.c:_dom_node_set_node_value", "src/core/node.c:_dom_node_get_node_value"]}
{"id": "C62", "title": "Named ancestors", "statement": "dom_element_named_ancestor_node gives the nearest proper ancestor that is an Element of the given name, dom_element_parent_node the nearest that is an Element, dom_element_named_parent_node the latter if it has the given name; NULL if there is none.", "quantifier": "every node of every reachable tree and every name", "why_tests_cant": "Every depth of the tree.", "anchors": ["src/core/element.c:dom_element_named_ancestor_node", "src/core/element.c:dom_element_named_parent_node", "src/core/element.c:dom_element_parent_node"]}
{"id": "C63", "title": "ID attributes", "statement": "Declaring an attribute of an element as ID (setIdAttribute) makes its value the id of the element, marks its node, and takes the mark off the one declared before; nothing else changes. An attribute the element does not have is refused. Undeclaring it makes it no longer the id.", "quantifier": "every element, every attribute list, every name, every history of attribute calls before", "why_tests_cant": "The id of an element depends on the declared name, the document's id name and the attribute list together.", "anchors": ["src/core/element.c:_dom_element_set_id_attr", "src/core/element.c:_dom_element_get_id"]}
{"id": "C64", "title": "Parser tree callbacks", "statement": "The callbacks through which the HTML parser builds the tree do what they are named for: append_child puts a node last (a Text is merged into a Text that is last already), reparent_children moves all children in order to the end of another node and changes nothing else, get_parent returns the parent (only an element one if asked), add_attributes makes each given name read as the value given last; on failure the tree is unchanged.", "quantifier": "for all trees, all nodes and reference counts, all attribute lists", "why_tests_cant": "The order of children, the reference counts and the attributes are determined by loops whose length depends on the document; unit tests cannot cover all trees, and the failing cases (a parentless node, a new parent inside the subtree, a Text that has a parent) are rare in parser runs.", "anchors": ["bindings/hubbub/parser.c:345-369", "bindings/hubbub/parser.c:426-509", "bindings/hubbub/parser.c:575-632", "src/core/node.c:2271-2291"]}
{"id": "C65", "title": "String storage: reference counts, interning and comparison", "statement": "For a client that uses only strings it holds references on and gives back only those: no call of dom_string_create, _create_interned, _ref, _unref, _intern, _concat, _toupper, _tolower or _whitespace_op faults; a string exists exactly while it is referenced, its count is the number of references and its bytes never change, also when it is turned into an interned string; every buffer belongs to one live string and a libwapcaplet string exists exactly while a client or a string uses it, so nothing is left when all references are gone; dom_string_isequal and dom_string_lwc_isequal decide equality of bytes whichever strings are interned, although interned strings are compared by address only; interning gives the same address exactly for equal bytes.", "quantifier": "for all sequences of calls by such a client, all strings, all byte contents", "why_tests_cant": "Whether comparing addresses equals comparing bytes, and whether every reference is given back, depends on the whole history of interning, sharing and releasing; tests see a handful of histories and a leak or a stale intern entry shows no symptom.", "anchors": ["src/core/string.c:57-237", "src/core/string.c:308-333", "src/core/string.c:546-588", "src/core/string.c:898-1118", "include/dom/core/string.h:24-41"]}
{"id": "C66", "title": "Integer properties read the number in the attribute", "statement": "An integer property whose attribute text is a number by the rules of HTML (white space, optional sign, decimal digits, then anything) reads as that number; if the attribute is absent, is not a number or is out of range, it reads as the default.", "quantifier": "every attribute text and every number", "why_tests_cant": "Infinitely many texts: signs, leading white space, trailing garbage, other bases, overflow.", "anchors": ["src/html/html_element.c:dom_html_element_get_int32_t_property", "src/html/html_element.c:dom_html_element_get_dom_ulong_property"]}
{"id": "C67", "title": "Rows know their place and cells are inserted and deleted by index", "statement": "sectionRowIndex of a row is the number of rows in front of it in its section, rowIndex is its index among all rows of the table (head, then bodies, then foot). insertCell(i) puts a new empty cell so that it becomes cell i (or the last for -1), deleteCell(i) removes exactly cell i (the last for -1), other cells keep their order, and any other index raises INDEX_SIZE_ERR and changes nothing.", "quantifier": "for all trees meeting the invariant, all rows, all tables with any number of sections and rows, all indices", "why_tests_cant": "the number of rows, sections and cells and the position of text nodes between them are unbounded; a test fixes one table", "anchors": ["src/html/html_tablerow_element.c:203-285", "src/html/html_tablerow_element.c:294-310", "src/html/html_tablerow_element.c:319-462"]}
{"id": "C68", "title": "HTML elements are created with the right name, type and references", "statement": "An HTML document creates, for every valid tag name, an element whose tag name is the upper case of the given name (the name itself in the SVG namespace) and whose type is the one that html_elements.h lists for that name, up to case; invalid names are refused. The element owns exactly one reference on each of its strings and destroying it gives them back; a released document gives back exactly its strings.", "quantifier": "for all interned-string heaps reachable by string calls, all names and namespaces", "why_tests_cant": "names and reference counts are unbounded; a leaked or missing reference is not visible in the result of the call", "anchors": ["src/html/html_document.c:_dom_html_document_get_element_type", "src/html/html_document.c:_dom_html_document_create_element_internal", "src/html/html_document.c:_dom_html_document_create_element_ns", "src/html/html_document.c:_dom_html_document_initialise", "src/html/html_document.c:_dom_html_document_finalise"]}
{"id": "C69", "title": "Title, body and collections of an HTML document", "statement": "The title that was set is returned until another is set; otherwise the title is the text of the first TITLE element in document order. The body is the element that was set, else the first BODY, else the first FRAMESET element, else null. images, links, anchors, forms and applets hold exactly the elements DOM names for them, in document order.", "quantifier": "for all trees meeting the invariant, all attributes and all strings", "why_tests_cant": "the tree, the positions of the elements and the histories of setting are unbounded", "anchors": ["src/html/html_document.c:_dom_html_document_get_title", "src/html/html_document.c:_dom_html_document_set_title", "src/html/html_document.c:_dom_html_document_get_body", "src/html/html_document.c:_dom_html_document_get_images"]}
{"id": "C70", "title": "Event objects and default actions", "statement": "While a dispatch runs, the target of the event is the node it was dispatched to, its current target the node whose listener runs and its phase the phase of the flow. The default action of an event is performed after the event flow unless preventDefault was called on a cancelable event; its callbacks run in the order started, (prevented or end), finished. Asking an event for its target or current target is safe as long as the event exists.", "quantifier": "for all trees and references of a careful client, all listeners that use tree, listeners and event as careful clients, all nodes and paths", "why_tests_cant": "what listeners do while a dispatch runs is unbounded, and the states it can be in are too", "anchors": ["src/core/node.c:_dom_node_dispatch_event", "src/events/event_target.c:_dom_event_target_dispatch", "src/events/event.c:_dom_event_get_target", "src/events/event.c:_dom_event_get_current_target", "src/events/event.c:_dom_event_prevent_default"]}
{"id": "C71", "title": "Forms and their controls", "statement": "The elements of a form are the INPUT, TEXTAREA, SELECT and BUTTON elements of the document associated with it, each once and in document order; their number, the item at an index and the item with a name agree with that list. Each control has at most one form: associating a control takes it out of the elements of any other form, and the form a control gives is the only form it is an element of, with a counted reference. The controls inside a form are its elements, and controls outside it are not.", "quantifier": "for all documents (well-formed trees of any size), histories of attribute operations, forms, controls, indices and names", "why_tests_cant": "A test covers a few hand-made pages; the statement is about the collection over every tree, every association and every later change, and about the pointer after the form is gone.", "anchors": ["src/html/html_form_element.c:169-210", "src/html/html_form_element.c:300-327", "bindings/hubbub/parser.c:525-573", "src/html/html_input_element.c:498-515"]}
{"id": "C72", "title": "Values of INPUT and TEXTAREA elements", "statement": "The value of an INPUT element is the one set last, and its default value if none was set; the default value is the one set last and otherwise that of the value attribute. Its checkedness is the one set last and otherwise the default, which is set or comes from the checked attribute; a click on a checkbox toggles it. The value of a TEXTAREA element is the one set last and otherwise its text; its default value is the one set last and otherwise its text. No call uses a released string, a copy has the values of the original, and the element gives back every reference it took.", "quantifier": "for all histories of calls on the element and on strings by a client that keeps to the reference counts", "why_tests_cant": "values depend on the order of setters, getters and attribute changes in histories of any length; a lost reference is not visible in any result", "anchors": ["src/html/html_input_element.c:dom_html_input_element_get_value", "src/html/html_input_element.c:_dom_html_input_element_parse_attribute", "src/html/html_input_element.c:_dom_html_input_element_finalise", "src/html/html_input_element.c:dom_html_input_element_click", "src/html/html_text_area_element.c:dom_html_text_area_element_get_value", "src/html/html_text_area_element.c:dom_html_text_area_element_set_value"]}
{"id": "C73", "title": "Modifier keys of events", "statement": "A keyboard, mouse or wheel event says that a modifier key was down exactly when its last initialisation said so, by the flags for the keys or by a list of names separated by spaces; the questions for single keys and the question by name agree; a name that is not that of a modifier is reported as not down. Reading a list never leaves the string.", "quantifier": "for all lists of names (byte strings of any length), all states of the event, all sequences of initialisations", "why_tests_cant": "the bits, the lengths of the names (one is a prefix of another) and the position in the list interact; each test only sees some lists", "anchors": ["src/events/keyboard_event.c:131-234", "src/events/keyboard_event.c:252-289", "src/events/keyboard_event.c:391-460", "src/events/mouse_event.c:126-177", "src/events/mouse_event.c:222-359", "src/events/mouse_wheel_event.c:95-115", "src/events/mouse_multi_wheel_event.c:129-152"]}
{"id": "C74", "title": "Event objects: creation, initialisation and references", "statement": "An event of every type can be created, by its own function or by createEvent with the name of its type; any other name is refused with NOT_SUPPORTED_ERR. After any number of initialisations and reads, type, namespace, bubbles, cancelable, time, strings and related node are those given last; every string and node handed out is valid and carries a reference of its own. Releasing the last reference gives back every reference the event took, on strings and on nodes.", "quantifier": "for all event types, all states of the string storage, all histories of initialisations (with and without namespace), reads, refs and unrefs", "why_tests_cant": "which references are taken depends on the type of event and on how often it was initialised; leaks and unwritten fields show no effect in a functional test", "anchors": ["src/events/event.c:20-75", "src/events/event.c:247-359", "src/events/custom_event.c", "src/events/text_event.c", "src/events/keyboard_event.c", "src/events/mutation_event.c", "src/events/mutation_name_event.c", "src/events/document_event.c:26-183"]}
{"id": "C75", "title": "The XML parser binding for expat builds the document", "statement": "Whatever sequence of events expat reports, no handler crashes, memory stays consistent, all new nodes are in the tree of the new document, nothing else changes, and after the parser is destroyed the caller holds the only reference, whose release frees the whole document. For a document, the nodes built are those of the document, in order, with their names, namespaces, attributes, data and identifiers.", "quantifier": "for all memories at the start, all sequences of events, all documents (prolog, document type, arbitrarily nested content)", "why_tests_cant": "sequences of events are unbounded and the reference held for the current node moves with every tag; tests parse a few files", "anchors": ["bindings/xml/expat_xmlparser.c:25-32", "bindings/xml/expat_xmlparser.c:36-301", "bindings/xml/expat_xmlparser.c:364-465", "bindings/xml/expat_xmlparser.c:478-620", "src/core/implementation.c:60-121"]}
{"id": "C76", "title": "Creating documents and document types", "statement": "createDocument succeeds exactly when the names are accepted by createElementNS (or there are none) and the DocumentType, if given, belongs to no document. Then there is a new document whose children are the DocumentType and the root element, in this order; the caller holds exactly one reference to the document and as many to the DocumentType as before, the root is held by the document only, and nothing else changed. Otherwise the exception is INVALID_CHARACTER_ERR for a name that is no Name, NAMESPACE_ERR for the other name errors, WRONG_DOCUMENT_ERR for a used DocumentType; no node changed and the half-made document is freed. createDocumentType refuses names that are no qualified names.", "quantifier": "for all namespaces, qualified names and document types, in every memory that the tree calls can reach", "why_tests_cant": "The error paths release different sets of objects, and the DocumentType comes from the caller in any of three states; tests create a document from good names.", "anchors": ["src/core/implementation.c:60-121", "src/core/implementation.c:153-272"]}
{"id": "C77", "title": "Listener entries in memory", "statement": "The entries of the event targets, linked in circles by next and prev, are at every time exactly the lists that registering and removing listeners should give: the target points to its first entry, every entry points to the next and the last to the first, no entry is in two lists and none is in memory that is in no list. The count of a listener object is the number of references of the client plus the number of entries with it, and the object is freed when this is 0. No sequence of calls by a client that uses only listeners it holds, and continues an iteration only at registered entries, reads a freed entry or object. Finalising a target frees all its entries. An iteration visits every entry once, in the order of registration, hands out each wanted listener with one reference for the client, and may be continued after the client removed the listener it was handed.", "quantifier": "for all sequences of creating, referencing, registering, removing, iterating and finalising on any number of targets", "why_tests_cant": "The entries form pointer structures of any size, changed by any interleaving of calls; tests use a few listeners on one target.", "anchors": ["src/utils/list.h:23-80", "src/events/event_target.c:22-58", "src/events/event_target.c:72-148", "src/events/event_target.c:284-325", "src/events/event_listener.c:22-65"]}
{"id": "C78", "title": "replaceWholeText", "statement": "replaceWholeText on a Text node makes the node the only one of its run of logically adjacent Text nodes and gives it the new text: all other Text nodes of the run leave the tree, the node itself stays where it is, and nothing else changes. Nodes of the run that nobody references are freed, the others stay with their data. The node is returned with one reference for the caller. A run below a read-only parent is refused with NO_MODIFICATION_ALLOWED_ERR and nothing changes. On a node without parent only its text is replaced.", "quantifier": "for all trees, all runs of adjacent Text nodes of any length, all reference counts and all contents", "why_tests_cant": "The run may have any length and its nodes any number of references; tests use one or two nodes and cannot see whether every node is freed exactly once.", "anchors": ["src/core/text.c:273-291", "src/core/text.c:349-460", "src/core/text.c:470-537"]}
{"id": "C79", "title": "setting, removing and reading attributes by name in the tree", "statement": "Setting an attribute by name on an element of a tree replaces the value of the first attribute of that name, or adds a new attribute with that name and value at the end if there is none; the value becomes exactly one Text node with the given text, the nodes of the old value leave the attribute, those that nobody references are freed and the others stay with their data; nothing else in the tree changes and no reference of the caller changes. Removing by name takes off the first attribute of that name; it is freed with its value if nobody references it, and stays as an attribute without element otherwise. Names that are empty or have a forbidden character, read-only elements and read-only attributes are refused and nothing changes. Reading gives the concatenated text of the value, and the value that was set is the value that is read.", "quantifier": "for all sound trees, all elements, names, namespaces, values (also NULL) and reference counts", "why_tests_cant": "Which nodes of a value are released depends on all references held elsewhere; a test sees one combination and no leak or early release in the others.", "anchors": ["src/core/element.c:1614-1839", "src/core/attr.c:441-596"]}
{"id": "C80", "title": "a whole parse through the HTML parser binding", "statement": "Whatever sequence of callbacks Hubbub makes on nodes it holds, interleaved with what the client does and for any number of parsers and fragment parsers at a time, every callback returns; the document of each parser is in memory and is a document; a node referenced by the client, by Hubbub or by a binding is in memory and its reference count is exactly the number of these references; what is in memory is reachable from a referenced node; and when all parsers are destroyed and the client gave up its references nothing is left. A start tag with a non-empty name becomes one new element of that name with one reference, whatever its attributes are. The name of a doctype is what stands before the first NUL; an attribute without namespace is found under its name in lower case (under the name as it is for SVG elements with a tag that HTML does not know), one with a namespace under what follows the colon.", "quantifier": "for all histories of parsers, callbacks and client calls of any length, all tag names, namespaces and attributes", "why_tests_cant": "Leaks and early releases depend on the exact order of callbacks, script calls and destruction; a test parses a few pages and sees neither the freed memory nor other interleavings.", "anchors": ["bindings/hubbub/parser.c:73-632", "bindings/hubbub/parser.c:765-1026", "src/html/html_document.c:553-935"]}
{"id": "C81", "title": "the XML parser binding for libxml2", "statement": "For every well-formed document the nodes of the new Document are those of the source document, in order, with their names, namespaces, prefixes, attributes, identifiers and data, however libxml2 cuts the text into pieces; and whatever sequence of events and errors libxml2 reports, also when the document refuses nodes and when the client changes the document between two chunks, no handler crashes, destroying the parser leaves all new nodes in the tree of the new document with exactly the caller's reference and what was in memory before as it was, and when the caller gives up its reference nothing of the document is left.", "quantifier": "for all memories in order, all documents with legal names, all cuts into pieces, and all sequences of SAX events", "why_tests_cant": "The copy is delayed: children are copied only when the next element starts or the element ends, through pointers between the two trees; whether one is missing, doubled or dangling depends on the order of events and on errors libxml2 recovers from, so no set of sample documents covers it.", "anchors": ["bindings/xml/libxml_xmlparser.c:169-256", "bindings/xml/libxml_xmlparser.c:346-562", "bindings/xml/libxml_xmlparser.c:601-1274", "src/core/element.c:276-355", "src/core/element.c:1890-2032"]}
{"id": "C82", "title": "references of the table and select functions", "statement": "For every history of a client that mixes edits of the tree with the functions of tables, table sections, rows and selections, the reference count of each node is the number of references the client has been given and has not given up, no call crashes, and when the client gives everything up nothing stays in memory. A refused call changes nothing; a new row, cell, section or caption has exactly the caller's reference; a deleted one is freed unless someone refers to it.", "quantifier": "for all histories of a client that has references to the nodes it passes, all indices, all trees in order", "why_tests_cant": "Each of these functions takes and gives up between two and a dozen references on a dozen exit paths, and a lost one shows only when everything else has been given up: no test looks at all the exits in all the shapes of a table.", "anchors": ["src/html/html_table_element.c:205-1019", "src/html/html_tablesection_element.c:230-339", "src/html/html_tablerow_element.c:353-462", "src/html/html_select_element.c:423-438", "src/html/html_select_element.c:637-685", "src/html/html_collection.c:33-103", "src/html/html_collection.c:160-202", "src/html/html_collection.c:305-315"]}
{"id": "C83", "title": "the place of options and cells, and the form of an element", "statement": "The index of an option is its place among the options of its selection and the index of a cell its place among the cells of its row; the form of a LABEL, FIELDSET, OBJECT, LEGEND or OPTION is the nearest form around it (for an option that of its selection), returned with exactly one reference for the caller; none of these calls changes the tree or crashes.", "quantifier": "for all trees in order, all options, cells and elements in them", "why_tests_cant": "The functions walk pointers up, sideways and through whole subtrees; whether the walk misses, doubles or leaves the row depends on nesting, on node types between and on where it starts, an unbounded set of shapes.", "anchors": ["src/html/html_option_element.c:95-121", "src/html/html_option_element.c:255-272", "src/html/html_tablecell_element.c:207-257", "src/html/html_label_element.c:152-177", "src/html/html_fieldset_element.c:155-180", "src/html/html_object_element.c:260-291", "src/html/html_legend_element.c:96-121"]}
{"id": "C84", "title": "Creating a document when memory runs out", "statement": "dom_document creation and dom_html_document creation are run against every possible sequence of granted and refused memory requests. A refused request must come back as DOM_NO_MEM_ERR, never as undefined behaviour, and nothing that was allocated on the way may stay behind; a document that was created gives everything back when it is destroyed.", "quantifier": "for all sequences of answers to the memory requests (which request is refused, how many), all memories before the call", "why_tests_cant": "every one of the 39 (HTML: 495) requests needs its own injected failure, and sequences with several failures their own; nothing in the test suite injects any", "anchors": ["src/core/document.c:81-364", "src/html/html_document.c:95-247", "src/events/document_event.c:51-83", "src/core/string.c:91-169"]}
{"id": "C85", "title": "Setting an attribute when memory runs out", "statement": "dom_element_set_attribute(_ns) for an attribute the element does not have yet, and dom_element_set_attribute_node for a free attribute, are run against every sequence of granted and refused memory requests. A refused request comes back as DOM_NO_MEM_ERR, without undefined behaviour, with every reference count as before; if all are granted the attribute is there, the class cache has the class names, and taking the attribute away gives everything back.", "quantifier": "for all sequences of answers to the memory requests, all memories, names, namespaces, values and numbers of class names", "why_tests_cant": "needs an injected failure at every single request, for values with any number of class names", "anchors": ["src/core/element.c:68-148", "src/core/element.c:276-356", "src/core/element.c:1642-1760", "src/core/element.c:1890-2032", "src/core/attr.c:89-152", "src/core/attr.c:534-596"]}
{"id": "C86", "title": "Copying an element when memory runs out", "statement": "Copying an element is run against every sequence of granted and refused memory requests. Either the copy has the same attributes, values and class names as the element, or the answer is DOM_NO_MEM_ERR and nothing stays behind; destroying a copy gives everything back.", "quantifier": "for all sequences of answers to the memory requests, all memories, all elements with any attributes and class names", "why_tests_cant": "needs an injected failure at every single request, for elements with any number of attributes with class at any place among them", "anchors": ["src/core/element.c:389-465", "src/core/element.c:1533-1597", "src/core/attr.c:669-689", "src/core/attr.c:773-806", "src/core/node.c:1125-1174"]}
{"id": "C87", "title": "Creating parsers when memory runs out", "statement": "The creation of the HTML parser, the fragment parser and the XML parsers (libxml and expat bindings) is run against every sequence of granted and refused memory requests. A refused request comes back as an error, without undefined behaviour and with nothing left behind; a parser that was created gives everything back when it is closed and its document or fragment given up, in whatever order.", "quantifier": "for all sequences of answers to the memory requests, all memories, with and without a charset, both orders of closing", "why_tests_cant": "the creation of an HTML parser makes 501 requests; each needs its own injected failure, and the losses are only visible with a leak checker", "anchors": ["bindings/hubbub/parser.c:57-62", "bindings/hubbub/parser.c:766-996", "bindings/hubbub/parser.c:1015-1026", "bindings/xml/libxml_xmlparser.c:169-256", "bindings/xml/expat_xmlparser.c:478-573", "src/core/implementation.c:153-217"]}
{"id": "C88", "title": "The strings of the namespace component when memory runs out", "statement": "The first use of the namespace component makes eight strings. Whatever requests are refused, a failed use reports DOM_NO_MEM_ERR, a later use may succeed, and dom_namespace_finalise gives back every string the component ever made.", "quantifier": "for all sequences of answers to the memory requests, all memories, one and two tries", "why_tests_cant": "needs a failure injected at each of the 16 requests of the first use and a second try after it", "anchors": ["src/utils/namespace.c:43-107", "src/utils/namespace.c:131-147", "src/core/implementation.c:153-217"]}
{"id": "C89", "title": "The life of an HTML document whose nodes outlive it", "statement": "A client that uses only the document, nodes and strings it holds never makes an HTML document do anything undefined, even after it gave the document up while holding nodes of it. The document stays in memory exactly while the client holds it or one of its nodes exists; each string has the references of its holders; when the client has given everything back nothing is left.", "quantifier": "for all sequences of calls, any number of nodes, references and strings", "why_tests_cant": "needs particular orders of giving up the document and its nodes and of getting the document back from a node; the harm of a second release shows only with a memory checker", "anchors": ["src/html/html_document.c:202-247", "src/html/html_document.c:555-600", "src/html/html_document.c:1069-1122", "src/core/document.c:318-364", "src/core/document.c:1288-1295", "src/core/document.c:1568-1574", "src/core/node.c:223-299", "src/core/node.c:695-713", "src/core/node.c:2304-2322", "src/html/html_element.c:142-172"]}
{"id": "C90", "title": "Token lists when memory runs out", "statement": "A token list may be created, read, changed and released with any of its requests for memory refused. No call uses an object that is not there or writes outside the array, and releasing the list gives back exactly what it took. A call that reports an error has changed nothing, a call that reports none has done its work, and the answers are those of the attribute.", "quantifier": "for all memories (any answer to every request), all values of the attribute, all strings of the client and all sequences of calls", "why_tests_cant": "a test would have to refuse every single request in every sequence of calls, and look at the attribute after each", "anchors": ["src/core/tokenlist.c:93-106", "src/core/tokenlist.c:108-219", "src/core/tokenlist.c:221-266", "src/core/tokenlist.c:283-324", "src/core/tokenlist.c:344-372", "src/core/tokenlist.c:490-547", "src/core/element.c:1642-1760"]}
{"id": "C91", "title": "Character data when memory runs out", "statement": "Every change of character data (set, append, insert, delete, replace), splitText, getWholeText and the joining of neighbours in normalize is run against every sequence of granted and refused memory requests, with any number of listening ancestors. A refused request comes back as DOM_NO_MEM_ERR, never as undefined behaviour; a call that fails leaves the text as it was and keeps nothing; a call that succeeds has made the change asked for and holds one reference to the new value.", "quantifier": "all texts, offsets, counts and strings; all places in a tree and all numbers of listening ancestors; all sequences of granted and refused requests", "why_tests_cant": "A refusal at one particular request has to be forced, and the request numbers depend on how many ancestors listen; a lost string or a text that was cut although the call failed shows in no ordinary test run.", "anchors": ["src/core/characterdata.c:124-459", "src/core/text.c:180-230", "src/core/text.c:349-537", "src/core/node.c:2271-2291", "src/core/node.c:2408-2649", "src/events/dispatch.c:176-245", "src/events/mutation_event.c:19-63"]}
{"id": "C92", "title": "A deep copy that runs out of memory leaves nothing behind", "statement": "dom_node_clone_node either returns a copy with the strings and the children of the source, held by the caller alone, or returns DOM_NO_MEM_ERR with every block and every string reference it took given back.", "quantifier": "all sources of elements without attributes, texts and comments, of any depth and width; all patterns of granted and refused requests", "why_tests_cant": "Which request fails decides what remains; a test can refuse only some requests of some trees, and a lost subtree shows nowhere but in the reference counts.", "anchors": ["src/core/node.c:1125-1174", "src/core/node.c:1900-1952", "src/core/node.c:2107-2156", "src/core/node.c:2651-2689", "src/core/node.c:224-298", "src/core/node.c:2304-2320"]}
{"id": "C93", "title": "A tree-changing call that runs out of memory leaves the tree as it was, and one that succeeds has told the listeners", "statement": "When dom_node_insert_before, append_child, replace_child or remove_child returns DOM_NO_MEM_ERR, the links between the nodes and the reference counts are those of before the call; when it succeeds, every event of the change has been raised.", "quantifier": "all trees that the tree functions can build; all arguments; all patterns of granted and refused requests for events", "why_tests_cant": "The only requests are those of the mutation events, one for each node of the moved subtree; which of them fails decides at which point the function is left, and a test can refuse only some of them on some trees.", "anchors": ["src/core/node.c:746-854", "src/core/node.c:889-967", "src/core/node.c:987-1032", "src/core/node.c:2107-2156", "src/core/node.c:2166-2201", "src/core/node.c:2651-2689", "src/events/dispatch.c:26-66", "src/events/dispatch.c:216-245"]}
{"id": "C94", "title": "The own fields of HTML elements hold what was put there", "statement": "After every sequence of creations (by a client or the HTML parser), copies, writes and reads, reading a field of a BUTTON, INPUT, OPTION, SCRIPT, SELECT or TEXTAREA gives the value last written, the value the original held when the copy was made, or the initial value; no field is read before it was written.", "quantifier": "all sequences of calls on any number of elements of all kinds", "why_tests_cant": "Fields that were never assigned hold whatever the allocator left there; a test on a fresh heap usually sees zeros.", "anchors": ["src/html/html_button_element.c:59-66", "src/html/html_button_element.c:145-182", "src/html/html_input_element.c:59-74", "src/html/html_input_element.c:358-406", "src/html/html_option_element.c:61-69", "src/html/html_option_element.c:448-484", "src/html/html_script_element.c:59-67", "src/html/html_script_element.c:115-150", "src/html/html_select_element.c:61-68", "src/html/html_select_element.c:116-155", "src/html/html_text_area_element.c:59-70", "src/html/html_text_area_element.c:304-346", "bindings/hubbub/parser.c:248-271"]}
{"id": "C95", "title": "The encoding, the quirks mode and the errors of the HTML parser binding", "statement": "After any history of calls, a parser reports the encoding that it was given, otherwise the first that Hubbub proposed to it, otherwise Windows-1252, with where it came from. Hubbub is told to start again exactly for the first uncertain proposal to a parser without an encoding whose string is not the one it already works with. Every document has the encoding and the quirks mode that the last relevant call gave it, and no call changes another document. No string is used after it is freed, and every reference to a string is the client's or a document's. Errors of Hubbub that pass through the client's script callback come back unchanged, other errors become HUBBUB_UNKNOWN, and no error becomes success.", "quantifier": "all states, all histories of calls by the client and by Hubbub for any number of parsers and documents, all encodings and error numbers", "why_tests_cant": "the result depends on the order of proposals, parsers and documents, and lost references do not show in the answers of any call", "anchors": ["bindings/hubbub/parser.c:57-62", "bindings/hubbub/parser.c:634-711", "bindings/hubbub/parser.c:766-996", "bindings/hubbub/parser.c:1080-1087", "src/core/document.c:906-928", "src/core/document.c:1599-1604"]}
{"id": "C96", "title": "A node keeps its type and its document", "statement": "The functions that create, insert, replace, remove, clone, reference and release nodes, edit character data, split Text nodes, set the text content, and set, put and remove attributes (not adoption, import and renaming) never change the type of a node that stays in memory, and they do not change the document it belongs to unless the node is a DocumentType. This holds for any arguments and also when the function refuses, so under these calls a node that the client holds from one moment to a later one has the same type and the same document at both.", "quantifier": "all memories that a heedful client can meet, all later sequences of calls with any arguments that do not crash, all nodes", "why_tests_cant": "types are read as C casts in every function, so a change would only show in some later call on some path; tests cannot run all sequences of calls", "anchors": ["src/core/node.c:746-854", "src/core/node.c:148-214", "src/core/node.c:889-1032", "src/core/node.c:1125-1174", "src/core/node.c:1901-1952", "src/core/element.c:1642-1839", "src/core/attr.c:534-596", "src/core/characterdata.c:124-459"]}
{"id": "C97", "title": "The attributes of an element as a named node map", "statement": "A client that uses only what it has references to may mix the tree functions with named node maps as it likes without a fault. Every map that the client has a reference to exists, with as many references as the client has to it, and keeps its element in memory; the count of every node is the number of the client's references and of the maps on it. A map is live: its length, its items and its named items are the attributes that the element has at the time of the call, in order, the first of a name. Removing by name takes exactly the first attribute of that name out, and gives it to the client without a parent, or is refused with NOT_FOUND and changes nothing. Setting an attribute puts it at the end of the list, after taking out the first attribute of its name, which is given to the client; a node that is no attribute, an attribute of another document and an attribute of another element are refused, and nothing changes. When the client has given up everything, neither nodes nor maps are left.", "quantifier": "all histories of tree functions and functions of named node maps, any number of maps on any elements, all names, namespaces and indices", "why_tests_cant": "what a map shows depends on what was done to its element since the map was made, and a wrong count shows only when something is freed much later", "anchors": ["src/core/namednodemap.c:57-306", "src/core/element.c:229-269", "src/core/element.c:1326-1342", "src/core/element.c:1853-1871", "src/core/element.c:1890-2032", "src/core/element.c:2270-2401"]}
{"id": "C98", "title": "The body and the current script that an HTML document is told", "statement": "What was set as the body or as the current script of a document is answered until another is set for the same field of the same document, whatever else is called. What is answered is a node in memory. Setting and getting give no reference and take none.", "quantifier": "all histories of tree functions, of setting and of getting, for any number of documents", "why_tests_cant": "the answer is a bare pointer; whether it still points to a node depends on every other call since it was set", "anchors": ["src/html/html_document.c:139-140", "src/html/html_document.c:1148-1223", "src/html/html_document.h:27-29"]}
{"id": "C99", "title": "Document types are complete or not there", "statement": "dom_implementation_create_document_type, for any name and identifiers and whatever requests for memory are refused, either answers DOM_NO_MEM_ERR and leaves the memory as it was, or makes a document type with exactly that name and those identifiers; without a name it answers DOM_INVALID_CHARACTER_ERR. The name answered later is, character by character, the one passed, although only the prefix and the local name are kept; the identifiers answered are those passed. Answers that are refused leave the memory as it was, and destruction gives back everything but the strings that were answered. Disagreement: the comment of the function promises errors for invalid and malformed names, but every string is accepted.", "quantifier": "all names and identifiers, all patterns of refused requests, all sequences of questions", "why_tests_cant": "Tests do not refuse single requests for memory, and cannot try all names; the parts of the name are split and joined again, which is only right if it is right for every position of the colon.", "anchors": ["src/core/implementation.c:60-121", "src/core/document_type.c:64-161", "src/core/document_type.c:182-186", "src/core/document_type.c:247-280", "src/utils/namespace.c:249-285", "src/core/node.c:363-414"]}
