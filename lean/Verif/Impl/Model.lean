import Verif.Parse.Xml
/-!
# Creating documents: src/core/implementation.c

Modelled: `dom_implementation_create_document_type` (`Xml.newDoctype`) and `dom_implementation_create_document` for documents of the core implementation
(`DOM_IMPLEMENTATION_CORE`).  Not modelled: the creation of HTML documents by the same function (src/core/implementation.c:202-208), the function that finds default actions, and
failures of `malloc`.
-/
namespace Dom.Impl

open Dom.Tree
open Dom.Str (Bytes DStr)

/-- A call, and what is done with the exception it returned, or with its result. -/
def orErr {α β : Type} (m : M α) (bad : Exc → M β) (good : α → M β) : M β := fun w =>
  match m w with
  | .ok w' a => good a w'
  | .exc w' e => bad e w'
  | .fault f => .fault f

/-- The strings made of `namespace` and `qname`, src/core/implementation.c:165-179; NULL stays NULL. -/
def str (s : Option Bytes) : Option DStr := s.map Str.create

/-- The checks of the names, src/core/implementation.c:181-192. -/
def checkNames (ns q : Option DStr) : M Unit :=
  if q.isSome ∧ Names.validateName q = false then M.throw .invalidCharacter
  else
    match Names.validateQName q ns with
    | .ok _ => pure ()
    | .exc _ => M.throw .namespace
    | .fault f => M.crash f

/-- The check of the DocumentType, src/core/implementation.c:194-198. -/
def checkDoctype (t : Option NodeId) : M Unit :=
  match t with
  | none => pure ()
  | some x => do
    let n ← getNode x
    throwIf n.parent.isSome .wrongDocument

/-- Setting the DocumentType, src/core/implementation.c:217-233. -/
def setDoctype (d : NodeId) (t : Option NodeId) : M Unit :=
  match t with
  | none => pure ()
  | some x =>
    orErr (appendChild d x)
      (fun e => do
        unref d
        M.throw e)
      fun r => unref r

/-- The root element is put into the document, src/core/implementation.c:248-262. -/
def putRoot (d e : NodeId) : M Unit :=
  orErr (appendChild d e)
    (fun x => do
      unref e
      unref d
      M.throw x)
    fun r => do
      unref r
      unref e

/-- The root element, src/core/implementation.c:235-263. -/
def setRoot (d : NodeId) (ns q : Option DStr) : M Unit :=
  match q with
  | none => pure ()
  | some _ =>
    orErr (Query.createNodeNS d .element ns q)
      (fun e => do
        unref d
        M.throw e)
      fun e => putRoot d e

/-- `dom_implementation_create_document`, src/core/implementation.c:153-272, for `DOM_IMPLEMENTATION_CORE`: the namespace and the qualified name of the root element, and the
DocumentType. -/
def createDocument (ns q : Option Bytes) (t : Option NodeId) : M NodeId := do
  checkNames (str ns) (str q)
  checkDoctype t
  let d ← Tree.createDocument
  setDoctype d t
  setRoot d (str ns) (str q)
  pure d

end Dom.Impl
