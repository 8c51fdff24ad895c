import Verif.Basic

/-!
# Hash table: src/utils/hashtable.c

Keys and values are opaque pointers; `Option K`, `Option V` are pointers that may be NULL.  A chain is the list of its
entries, head first.
-/
namespace Dom.Hash

/-- `dom_hash_vtable`, src/utils/hashtable.h:17-24, without the two destroy functions (`_dom_hash_destroy` is not
modelled).  `clone_key` and `clone_value` may return NULL. -/
structure VTable (K V : Type) where
  hash : K → Nat
  cloneKey : K → Option K
  cloneValue : V → Option V
  isEqual : K → K → Bool

/-- `struct dom_hash_table`, src/utils/hashtable.c:30-36 (vtable and client data are passed apart). -/
structure Table (K V : Type) where
  nchains : Nat
  chain : List (List (K × V))
  nentries : Nat
  deriving Repr, DecidableEq

variable {K V : Type}

/-- `_dom_hash_create`, src/utils/hashtable.c:51-70. -/
def create (chains : Nat) : Table K V :=
  { nchains := chains, chain := List.replicate chains [], nentries := 0 }

/-- `h % ht->nchains` followed by the access `ht->chain[c]`, src/utils/hashtable.c:163-166, 207-210, 234-237.
A remainder by zero and an access past the array are both undefined. -/
def chainOf (vt : VTable K V) (t : Table K V) (k : K) : Out (Nat × List (K × V)) :=
  if t.nchains = 0 then .fault .overrun
  else
    let c := vt.hash k % t.nchains
    match t.chain[c]? with
    | none => .fault .overrun
    | some es => .ok (c, es)

/-- The loop of `_dom_hash_get`, src/utils/hashtable.c:210-213. -/
def getLoop (vt : VTable K V) (k : K) : List (K × V) → Option V
  | [] => none
  | e :: es => if vt.isEqual k e.1 then some e.2 else getLoop vt k es

/-- `_dom_hash_get`, src/utils/hashtable.c:198-216. -/
def get (vt : VTable K V) (t : Table K V) (key : Option K) : Out (Option V) :=
  match key with
  | none => .ok none
  | some k => do
    let c ← chainOf vt t k
    .ok (getLoop vt k c.2)

/-- The loop of `_dom_hash_add`, src/utils/hashtable.c:166-175: `none` if no entry has the key, otherwise the chain
with the value exchanged if `replace`, and the boolean returned. -/
def addLoop (vt : VTable K V) (k : K) (v : V) (replace : Bool) : List (K × V) → Option (List (K × V) × Bool)
  | [] => none
  | e :: es =>
    if vt.isEqual k e.1 then (if replace then some ((e.1, v) :: es, true) else some (e :: es, false))
    else (addLoop vt k v replace es).map fun r => (e :: r.1, r.2)

/-- `_dom_hash_add`, src/utils/hashtable.c:153-189 (`malloc` does not fail). -/
def add (vt : VTable K V) (t : Table K V) (key : Option K) (value : Option V) (replace : Bool) :
    Out (Table K V × Bool) :=
  match key, value with
  | some k, some v => do
    let c ← chainOf vt t k
    match addLoop vt k v replace c.2 with
    | some r => .ok ({ t with chain := t.chain.set c.1 r.1 }, r.2)
    | none => .ok ({ t with chain := t.chain.set c.1 ((k, v) :: c.2), nentries := u32 (t.nentries + 1) }, true)
  | _, _ => .ok (t, false)

/-- The loop of `_dom_hash_del`, src/utils/hashtable.c:237-251: the value and the chain without the entry. -/
def delLoop (vt : VTable K V) (k : K) : List (K × V) → Option (V × List (K × V))
  | [] => none
  | e :: es => if vt.isEqual k e.1 then some (e.2, es) else (delLoop vt k es).map fun r => (r.1, e :: r.2)

/-- `_dom_hash_del`, src/utils/hashtable.c:224-254. -/
def del (vt : VTable K V) (t : Table K V) (key : Option K) : Out (Table K V × Option V) :=
  match key with
  | none => .ok (t, none)
  | some k => do
    let c ← chainOf vt t k
    match delLoop vt k c.2 with
    | some r => .ok ({ t with chain := t.chain.set c.1 r.2, nentries := sub32 t.nentries 1 }, some r.1)
    | none => .ok (t, none)

/-- The two contexts of `_dom_hash_iterate`.  `he` is the entry pointer, given as the part of the chain that starts with
that entry (`[]` is NULL): the table must not change during the iteration.  `c1` is the chain number, `none` is the value
`(uintptr_t) -1`. -/
structure Iter (K V : Type) where
  c1 : Option Nat
  he : List (K × V)

/-- `(*c1)++` with wrap-around from -1 to 0, src/utils/hashtable.c:281. -/
def incr : Option Nat → Nat
  | none => 0
  | some n => n + 1

/-- The loop `while (!*he)`, src/utils/hashtable.c:280-285; `fuel` bounds the steps, `nchains + 1` are always enough
(`iterLoop_spec`). -/
def iterLoop (t : Table K V) : Nat → Option Nat → Out (Iter K V × Option K)
  | 0, _ => .fault .diverge
  | fuel + 1, c1 =>
    let c := incr c1
    if c ≥ t.nchains then .ok ({ c1 := some c, he := [] }, none)
    else
      match t.chain[c]? with
      | none => .fault .overrun
      | some [] => iterLoop t fuel (some c)
      | some (e :: es) => .ok ({ c1 := some c, he := e :: es }, some e.1)

/-- `_dom_hash_iterate`, src/utils/hashtable.c:264-287. -/
def iterate (t : Table K V) (it : Iter K V) : Out (Iter K V × Option K) :=
  match it.he with
  | [] => iterLoop t (t.nchains + 1) none
  | _ :: e :: es => .ok ({ it with he := e :: es }, some e.1)
  | [_] => iterLoop t (t.nchains + 1) it.c1

/-- `_dom_hash_get_length`, src/utils/hashtable.c:296-299. -/
def length (t : Table K V) : Nat := t.nentries

/-- The loop of `_dom_hash_clone`, src/utils/hashtable.c:90-110: the copy, or `none` for the NULL returned when a clone
function or `_dom_hash_add` fails.  The first call of `_dom_hash_iterate` sees `c2 == NULL`, so the uninitialised `c1` is
not read.  `value` comes from `_dom_hash_get`; a NULL value would be handed to `clone_value`, which is only given real
values here. -/
def cloneLoop (vt : VTable K V) (t : Table K V) : Nat → Iter K V → Table K V → Out (Option (Table K V))
  | 0, _, _ => .fault .diverge
  | fuel + 1, it, ret => do
    let r ← iterate t it
    match r.2 with
    | none => .ok (some ret)
    | some key =>
      match vt.cloneKey key with
      | none => .ok none
      | some nkey => do
        let value ← get vt t (some key)
        match value with
        | none => .fault .nullDeref
        | some v =>
          match vt.cloneValue v with
          | none => .ok none
          | some nv => do
            let a ← add vt ret (some nkey) (some nv) false
            if a.2 = false then .ok none else cloneLoop vt t fuel r.1 a.1

/-- `_dom_hash_clone`, src/utils/hashtable.c:79-113.  The fuel is a device of the model (see `C18_clone`). -/
def clone (vt : VTable K V) (t : Table K V) : Out (Option (Table K V)) :=
  cloneLoop vt t ((t.chain.map List.length).sum + 1) { c1 := none, he := [] } (create t.nchains)

end Dom.Hash
